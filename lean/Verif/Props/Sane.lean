import Verif.Proof.SaneRead
import Verif.Props.Errors
/-
C38, C39 for arbitrary byte strings: under which conditions on the bytes reading ends in every build, and does not panic.
-/
namespace Mp4.Props
open Mp4 Spec

/-! ### C38 -/

theorem sane_of {e : Env} {F : Bytes} (hF : Fit e F) (hm : e.maxPos < 2^63) (hs : SaneSizes F) : Sane True e F :=
  ⟨⟨hF, hm, hs⟩, fun h => absurd trivial h, fun _ h => absurd trivial h⟩

/-- **C38.** In every build, with or without overflow checks, reading any byte string whose 64 bit sizes are sane ends,
and no loop runs more often than the input has bytes. -/
theorem C38_sane (e : Env) (F : Bytes) (p : Nat) (hl : F.length ≤ e.maxPos) (hm : e.maxPos < 2^63)
    (hf : F.length < e.fuel) (hs : SaneSizes F) : readTag e F p ≠ .fuel :=
  (readTag_tot (sane_of ⟨hl, by omega, hf⟩ hm hs) p).1

/-- **C38.** The same for writing. -/
theorem C38_sane_write (e : Env) (F : Bytes) (p : Nat) (t : Tag) (hl : F.length ≤ e.maxPos) (hm : e.maxPos < 2^63)
    (hf : F.length < e.fuel) (hs : SaneSizes F) : (writeTag e F p t).1 ≠ .fuel := by
  have h := findTop_tot (pn := True) (sane_of ⟨hl, by omega, hf⟩ hm hs).toSaneB p
  have hp : preparePhase t.atoms e F p ≠ .fuel := by
    unfold Tot at h
    rw [preparePhase]
    intro hx
    rcases P.fuel_inv hx with h1 | ⟨a, q, -, h1⟩
    · rw [h1] at h; exact h
    · exact Term.bind (.E (mkPlan_nf _ _)) (fun _ => .bind .seekEnd fun _ => .bind (.E (subU_nf _ _ _)) fun _ =>
        .bind (.E (allocU8_nf _ _)) fun _ => .bind (.seekStart _) fun _ => .bind (fun F p => by simp [readToEnd]) fun _ =>
        .pure _) F q h1
  show (writeTagTo e F p t.atoms).1 ≠ .fuel
  unfold writeTagTo
  split
  · exact WTerm.writePhase _ _ _ _ _ _ _
  · simp
  · simp
  · contradiction

/-- All 64 bit sizes of a byte string, wherever their heads begin, checked by computation. -/
def saneB : Bytes → Bool
  | [] => true
  | x :: F => (if (x :: F).take 4 = [0, 0, 0, 1] ∧ 16 ≤ (x :: F).length then
      decide (16 ≤ beNat (((x :: F).drop 8).take 8) ∧ beNat (((x :: F).drop 8).take 8) < 2^63) else true) && saneB F

theorem saneB_tail : ∀ {A F : Bytes}, saneB (A ++ F) = true → saneB F = true
  | [], _, h => h
  | x :: A, F, h => by
    rw [List.cons_append, saneB, Bool.and_eq_true] at h
    exact saneB_tail h.2

theorem saneB_sound {F : Bytes} (h : saneB F = true) : SaneSizes F := by
  rintro fc n rest ⟨hn, A, rfl⟩
  rw [List.append_assoc] at h
  have h1 := saneB_tail h
  have h2 : headBytes true fc n ++ rest = 0 :: ([0, 0, 1] ++ fc.bytes ++ be64 n ++ rest) := by
    simp [headBytes, be32]
  have h3 : ((headBytes true fc n ++ rest).drop 8).take 8 = be64 n := by
    have : headBytes true fc n ++ rest = (be32 1 ++ fc.bytes) ++ (be64 n ++ rest) := by simp [headBytes]
    rw [this, List.drop_left' (by rfl), List.take_left' (by rfl)]
  rw [h2] at h3
  rw [h2, saneB, Bool.and_eq_true, h3, beNat_be64 n hn, if_pos ⟨rfl, by simp [Fourcc.bytes, be64_length]⟩] at h1
  exact of_decide_eq_true h1.1

/-- Random looking input. -/
def junkEx : Bytes :=
  (⟨false, cc 'f' 't' 'y' 'p', []⟩ : Box).ser ++ (be32 1 ++ (cc 'f' 'r' 'e' 'e').bytes ++ be64 20 ++ [1, 2, 3, 4]) ++
  be32 50 ++ (cc 'm' 'o' 'o' 'v').bytes ++ be32 1 ++ (cc 't' 'r' 'a' 'k').bytes ++ be64 (2^63 - 1) ++ be32 9

example : SaneSizes junkEx := saneB_sound (by decide +kernel)
example : readTag { env0 with checked := false } junkEx 0 ≠ .fuel :=
  C38_sane { env0 with checked := false } junkEx 0 (by decide +kernel) (by decide) (by decide +kernel)
    (saneB_sound (by decide +kernel))
example : readTag { env0 with checked := false } junkEx 0 = .err .io := by decide +kernel

/-- 48 bytes: a `moov` that claims to be 2^62 bytes long, in it a `trak` of 24 bytes that contains the head of an atom of
2^64 - 8 bytes, the content of which is skipped by seeking backwards, to the start of the `trak`. -/
def slowFile : Bytes :=
  (⟨false, cc 'f' 't' 'y' 'p', []⟩ : Box).ser ++ (be32 1 ++ (cc 'm' 'o' 'o' 'v').bytes ++ be64 (2^62)) ++
  (be32 24 ++ (cc 't' 'r' 'a' 'k').bytes) ++ (be32 1 ++ (cc 'f' 'r' 'e' 'e').bytes ++ be64 (2^64 - 8))

theorem slowFile_length : slowFile.length = 48 := by decide

theorem slow_trak (e : Env) (hf : 2 ≤ e.fuel) (hm : 48 ≤ e.maxPos) :
    parseTrak ⟨false, 24⟩ e slowFile 32 = .ok (none, 24) := by
  have hh : parseHead e slowFile 32 = .ok (⟨⟨true, 2^64 - 8⟩, cc 'f' 'r' 'e' 'e'⟩, 48) := by
    have := parseHead_ext e (slowFile.take 32) [] (2^64 - 8) (cc 'f' 'r' 'e' 'e') (by decide)
    have h1 : slowFile.take 32 ++ (be32 1 ++ (cc 'f' 'r' 'e' 'e').bytes ++ be64 (2^64 - 8)) ++ [] = slowFile := by decide
    have h2 : (slowFile.take 32).length = 32 := by decide
    rw [h1, h2] at this; exact this
  have hl : (⟨false, 24⟩ : Size).contentLen e = .ok 16 := rfl
  have hk : (⟨true, 2^64 - 8⟩ : Size).contentLen e = .ok (2^64 - 24) := rfl
  obtain ⟨f, hfu⟩ : ∃ f, e.fuel = f + 2 := ⟨e.fuel - 2, by omega⟩
  rw [parseTrak, loop, P.bind_ok (show getFuel e slowFile 32 = .ok (f + 2, 32) by rw [← hfu]; rfl), walk,
    P.bind_ok (E.p_ok hl _ _), P.if_apply, if_pos (by decide), P.bind_ok hh, P.bind_ok (a := none) (p' := 24), 
    P.bind_ok (E.p_ok (show addU 0 (2^64 - 8) e = .ok (2^64 - 8) from rfl) _ _), walk, P.bind_ok (E.p_ok hl _ _), P.if_apply,
    if_neg (by decide)]
  · rfl
  · rw [if_neg (by decide), P.bind_ok (a := ()) (p' := 24)]
    · rfl
    · rw [skipContent, P.bind_ok (E.p_ok hk _ _), show asI64 (2^64 - 24) = -24 by decide, seekCur, if_pos (by omega)]
      rfl

theorem slow_moov (e : Env) (hf : 2 ≤ e.fuel) (hm : 48 ≤ e.maxPos) :
    ∀ f s parsed, parsed + 24 * f ≤ 2^62 - 16 →
      walk (⟨true, 2^62⟩ : Size).contentLen moovHandle f s parsed e slowFile 24 = .fuel := by
  have hh : parseHead e slowFile 24 = .ok (⟨⟨false, 24⟩, cc 't' 'r' 'a' 'k'⟩, 32) := by
    have h1 : slowFile.take 24 ++ be32 24 ++ (cc 't' 'r' 'a' 'k').bytes ++ slowFile.drop 32 = slowFile := by decide
    have a := At_intro' (F := slowFile) (p := 24) (c := be32 24 ++ (cc 't' 'r' 'a' 'k').bytes) (slowFile.take 24) (slowFile.drop 32)
      (by rw [← h1]; decide) (by decide)
    rw [parseHead, P.bind_ok (readU32_at a.left (by decide) e), P.bind_ok (readExact_at' (n := 4) (a.right (n := 4) rfl) rfl e)]
    rfl
  have hl : (⟨true, 2^62⟩ : Size).contentLen e = .ok (2^62 - 16) := rfl
  intro f
  induction f with
  | zero => intro s parsed _; rfl
  | succ f ih =>
    intro s parsed hle
    have ha : addU parsed 24 e = .ok (parsed + 24) := by rw [addU, if_pos (by omega)]
    rw [walk, P.bind_ok (E.p_ok hl _ _), P.if_apply, if_pos (by omega), P.bind_ok hh,
      P.bind_ok (a := { s with trak := s.trak ++ [none] }) (p' := 24), P.bind_ok (E.p_ok ha _ _)]
    · exact ih _ _ (by omega)
    · rw [moovHandle, if_neg (by decide), if_pos (by decide), P.bind_ok (slow_trak e hf hm)]; rfl

/-- **C38.** The condition on the sizes cannot be dropped, not even in builds with overflow checks: reading these 48
bytes takes more than 2^57 iterations. -/
theorem C38_slow (e : Env) (hf : e.fuel ≤ 2^57) (hf2 : 2 ≤ e.fuel) (hm : 48 ≤ e.maxPos) :
    readTag e slowFile 0 = .fuel := by
  have hh := parseHead_ext e (⟨false, cc 'f' 't' 'y' 'p', []⟩ : Box).ser (slowFile.drop 24) (2^62) (cc 'm' 'o' 'o' 'v') (by decide)
  have h1 : (⟨false, cc 'f' 't' 'y' 'p', []⟩ : Box).ser ++ (be32 1 ++ (cc 'm' 'o' 'o' 'v').bytes ++ be64 (2^62)) ++ slowFile.drop 24
    = slowFile := by decide
  have h0 : (⟨false, cc 'f' 't' 'y' 'p', []⟩ : Box).ser.length = 8 := rfl
  rw [h1, h0] at hh
  have hft : parseFtyp e slowFile 0 = .ok ([], 8) := by
    have a := At_intro' (F := slowFile) (p := 0) (c := be32 8 ++ (cc 'f' 't' 'y' 'p').bytes) [] (slowFile.drop 8)
      (by decide) (by decide)
    have hh : parseHead e slowFile 0 = .ok (⟨⟨false, 8⟩, cc 'f' 't' 'y' 'p'⟩, 8) := by
      rw [parseHead, P.bind_ok (readU32_at a.left (by decide) e), P.bind_ok (readExact_at' (n := 4) (a.right (n := 4) rfl) rfl e)]
      rfl
    rw [parseFtyp, P.bind_ok hh]
    rfl
  have hr : remainingStreamLen e slowFile 8 = .ok (40, 8) := by
    unfold remainingStreamLen
    have : seekStart 8 e slowFile 48 = .ok ((), 8) := by rw [seekStart, if_pos (by omega)]
    rw [P.bind_ok (show tellP e slowFile 8 = .ok (8, 8) from rfl), P.bind_ok (show seekEnd e slowFile 8 = .ok (48, 48) from rfl),
      P.bind_ok (E.p_ok (show subU 48 8 e = .ok 40 from rfl) _ _), P.bind_ok this]
    rfl
  obtain ⟨f, hfu⟩ : ∃ f, e.fuel = f + 1 := ⟨e.fuel - 1, by omega⟩
  have hw := slow_moov e hf2 hm e.fuel {} 0 (by omega)
  have htop : topWalk 40 e.fuel 0 e slowFile 8 = .fuel := by
    rw [hfu, topWalk, P.if_apply, if_neg (by decide), P.bind_ok hh, P.if_apply, if_pos (by decide), parseMoov, loop,
      P.bind_ok (show getFuel e slowFile _ = .ok (e.fuel, 24) from rfl)]
    exact hw
  rw [readTag, readTagP, P.bind_ok hft, P.bind_ok hr, P.bind_ok (show getFuel e slowFile 8 = .ok (e.fuel, 8) from rfl),
    P.bind_apply, htop]
  rfl

example : readTag { env0 with checked := true, fuel := 300 } slowFile 0 = .fuel := by decide +kernel
example : ¬ SaneSizes slowFile := fun h => absurd (h (cc 'f' 'r' 'e' 'e') (2^64 - 8) []
  ⟨by decide, slowFile.take 32, by decide⟩).2 (by decide)

/-! ### C39 -/

/-- **C39.** Without overflow checks: what is left to cause a panic is an insane 64 bit size, a value atom too short
for its version, flags and locale, and a movie header with time scale 0. -/
theorem C39_causes (e : Env) (F : Bytes) (p : Nat) (hc : e.checked = false) (hl : F.length ≤ e.maxPos)
    (hm : e.maxPos < 2^63) (hf : F.length < e.fuel) (hs : SaneSizes F) (ht : NoTrap F) : readTag e F p ≠ .panic :=
  fun h => (readTag_tot (pn := False) ⟨⟨⟨hl, by omega, hf⟩, hm, hs⟩, fun _ => ht, fun hc' => by simp [hc] at hc'⟩ p).2 h

/-- **C39.** With overflow checks, movie headers too short or with an excessive duration and malformed `mp4a` atoms can
cause a panic as well, but nothing else. -/
theorem C39_causes_checked (e : Env) (F : Bytes) (p : Nat) (hl : F.length ≤ e.maxPos)
    (hm : e.maxPos < 2^63) (hf : F.length < e.fuel) (hs : SaneSizes F) (ht : NoTrap F) (ho : NoOverflow F) :
    readTag e F p ≠ .panic :=
  fun h => (readTag_tot (pn := False) ⟨⟨⟨hl, by omega, hf⟩, hm, hs⟩, fun _ => ht, fun _ _ => ho⟩ p).2 h

/-! Checking the conditions by computation -/

/-- Some part of the input satisfies `c`, up to the end of the input. -/
def anyTail (c : Bytes → Bool) : Bytes → Bool
  | [] => c []
  | x :: F => c (x :: F) || anyTail c F

theorem anyTail_of {c : Bytes → Bool} : ∀ (A : Bytes) {F : Bytes}, c F = true → anyTail c (A ++ F) = true
  | [], [], h => h
  | [], _ :: _, h => by rw [List.nil_append, anyTail, h]; rfl
  | _ :: A, F, h => by rw [List.cons_append, anyTail, anyTail_of A h, Bool.or_true]

theorem headIn_anyTail {F ext fc n rest} (h : HeadIn F ext fc n rest) : anyTail (fun s => (s.drop 4).take 4 = fc.bytes) F = true := by
  obtain ⟨hn, A, rfl⟩ := h
  rw [List.append_assoc]
  refine anyTail_of A ?_
  cases ext <;> simp [headBytes, be32, Fourcc.bytes]

/-- If the identifiers do not occur at all, there is nothing to be careful about. -/
theorem noTrap_of {F : Bytes} (h : ∀ fc ∈ [cc 'd' 'a' 't' 'a', cc 'm' 'e' 'a' 'n', cc 'n' 'a' 'm' 'e', cc 'm' 'v' 'h' 'd'],
    anyTail (fun s => (s.drop 4).take 4 = fc.bytes) F = false) : NoTrap F := by
  have key : ∀ fc ∈ [cc 'd' 'a' 't' 'a', cc 'm' 'e' 'a' 'n', cc 'n' 'a' 'm' 'e', cc 'm' 'v' 'h' 'd'],
      ∀ ext n rest, ¬ HeadIn F ext fc n rest := fun fc hfc ext n rest hin => by
    have := headIn_anyTail hin
    rw [h fc hfc] at this
    cases this
  exact ⟨fun _ _ _ hin => absurd hin (key _ (by simp) _ _ _), fun _ _ _ hin => absurd hin (key _ (by simp) _ _ _),
    fun _ _ _ hin => absurd hin (key _ (by simp) _ _ _), fun _ _ _ _ _ _ hin => absurd hin (key _ (by simp) _ _ _),
    fun _ _ _ _ _ _ hin => absurd hin (key _ (by simp) _ _ _)⟩

example : readTag { env0 with checked := false } junkEx 0 ≠ .panic :=
  C39_causes { env0 with checked := false } junkEx 0 rfl (by decide +kernel) (by decide) (by decide +kernel)
    (saneB_sound (by decide +kernel)) (noTrap_of (by decide +kernel))

/-! None of the conditions can be dropped: `C39_refuted` (time scale), `C39_refuted_alloc` and `loopFile` (sizes),
`C39_refuted_short_data`, `C39_refuted_duration`, and the following. -/

/-- A `mean` atom of 10 bytes. -/
def shortMean : Bytes :=
  (⟨false, cc 'f' 't' 'y' 'p', []⟩ : Box).ser ++ (⟨false, cc 'm' 'o' 'o' 'v', (⟨false, cc 'u' 'd' 't' 'a',
    (⟨false, cc 'm' 'e' 't' 'a', [0, 0, 0, 0] ++ (⟨false, cc 'i' 'l' 's' 't', (⟨false, cc '-' '-' '-' '-',
      (⟨false, cc 'm' 'e' 'a' 'n', [0, 0]⟩ : Box).ser ++ [0, 0]⟩ : Box).ser⟩ : Box).ser⟩ : Box).ser⟩ : Box).ser⟩ : Box).ser

example (checked : Bool) : readTag ⟨checked, 100, 2^63 - 1, 8192, fun _ => 0⟩ shortMean 0 = .panic := by
  cases checked <;> decide +kernel

/-- A movie header of 12 bytes. -/
def shortMvhd : Bytes :=
  (⟨false, cc 'f' 't' 'y' 'p', []⟩ : Box).ser ++ (⟨false, cc 'm' 'o' 'o' 'v',
    (⟨false, cc 'm' 'v' 'h' 'd', [0, 0, 0, 0]⟩ : Box).ser ++ (⟨false, cc 'f' 'r' 'e' 'e', [0, 0, 0, 1, 5, 6, 7, 8]⟩ : Box).ser⟩ : Box).ser

example : readTag ⟨true, 100, 2^63 - 1, 8192, fun _ => 0⟩ shortMvhd 0 = .panic := by decide +kernel
example : readTag ⟨false, 100, 2^63 - 1, 8192, fun _ => 0⟩ shortMvhd 0 ≠ .panic := by decide +kernel

/-- An `esds` atom too short for the descriptor in it. -/
def shortEsds : Bytes :=
  (⟨false, cc 'f' 't' 'y' 'p', []⟩ : Box).ser ++ (⟨false, cc 'm' 'o' 'o' 'v', (⟨false, cc 't' 'r' 'a' 'k',
    (⟨false, cc 'm' 'd' 'i' 'a', (⟨false, cc 'm' 'i' 'n' 'f', (⟨false, cc 's' 't' 'b' 'l', (⟨false, cc 's' 't' 's' 'd',
      [0, 0, 0, 0, 0, 0, 0, 1] ++ (⟨false, cc 'm' 'p' '4' 'a', List.replicate 28 0 ++
        (⟨false, cc 'e' 's' 'd' 's', []⟩ : Box).ser ++ [0, 0, 0, 0, 3, 3, 0, 0, 0]⟩ : Box).ser⟩ : Box).ser⟩ : Box).ser⟩ : Box).ser⟩
          : Box).ser⟩ : Box).ser⟩ : Box).ser

example : readTag ⟨true, 100, 2^63 - 1, 8192, fun _ => 0⟩ shortEsds 0 = .panic := by decide +kernel
example : readTag ⟨false, 100, 2^63 - 1, 8192, fun _ => 0⟩ shortEsds 0 ≠ .panic := by decide +kernel

end Mp4.Props
