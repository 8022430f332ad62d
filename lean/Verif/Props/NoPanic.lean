import Verif.Proof.NoPanic
import Verif.Props.Sane
import Verif.Props.WriteMore
/-
C62: panics while writing to arbitrary byte strings.
-/
namespace Mp4.Props
open Mp4 Spec

/-! ### C62 -/

/-- **C62**, in full. -/
def WriteNeverPanics : Prop := ∀ (e : Env) (F : Bytes) (p : Nat) (t : Tag), F.length ≤ e.maxPos → e.maxPos < 2^63 → F.length < e.fuel →
  (writeTag e F p t).1 ≠ .panic

/-- **C62**, what holds in a build without overflow checks: what is left to cause a panic is an insane 64 bit size, and a movie, user
data, metadata or item list atom that claims to extend beyond the end of the file. -/
theorem C62_partial (e : Env) (F : Bytes) (p : Nat) (t : Tag) (hc : e.checked = false) (hl : F.length ≤ e.maxPos)
    (hm : e.maxPos < 2^63) (hf : F.length < e.fuel) (hs : SaneSizes F) (hi : Contained F) : (writeTag e F p t).1 ≠ .panic :=
  fun h => writeTagTo_tot (pn := False) ⟨⟨hl, by omega, hf⟩, hm, hs⟩ (fun _ => hi) (fun h => by simp [hc] at h) p h

/-- **C62**, what holds in a build with overflow checks: in addition, 64 bit chunk offsets and enormous tags or files can cause a
panic. -/
theorem C62_checked_partial (e : Env) (F : Bytes) (p : Nat) (t : Tag) (hl : F.length ≤ e.maxPos)
    (hm : e.maxPos < 2^63) (hf : F.length < e.fuel) (hs : SaneSizes F) (hi : Contained F) (h64 : NoCo64 F) (hF : F.length < 2^61)
    (ht : (t.atoms.map AtomData.len).sum + 100 < 2^32) : (writeTag e F p t).1 ≠ .panic := by
  refine fun h => writeTagTo_tot (pn := False) ⟨⟨hl, by omega, hf⟩, hm, hs⟩ (fun _ => hi) (fun _ _ => ⟨hF, ?_, fun a ha => ?_, h64⟩) p h
  · unfold insertBound; omega
  · have := mem_le_sum (f := AtomData.len) ha
    omega

/-! Checking the conditions by computation -/

/-- The sizes of all movie, user data, metadata and item list atoms, wherever their heads begin. -/
def containedB : Bytes → Bool
  | [] => true
  | x :: F =>
    (if [cc 'm' 'o' 'o' 'v', cc 'u' 'd' 't' 'a', cc 'm' 'e' 't' 'a', cc 'i' 'l' 's' 't'].any fun fc => ((x :: F).drop 4).take 4 == fc.bytes then
      decide (beNat ((x :: F).take 4) ≤ (x :: F).length ∧
        ((x :: F).take 4 = [0, 0, 0, 1] → beNat (((x :: F).drop 8).take 8) ≤ (x :: F).length)) else true) && containedB F

theorem containedB_tail : ∀ {A F : Bytes}, containedB (A ++ F) = true → containedB F = true
  | [], _, h => h
  | x :: A, F, h => by
    rw [List.cons_append, containedB, Bool.and_eq_true] at h
    exact containedB_tail h.2

theorem containedB_sound {F : Bytes} (h : containedB F = true) : Contained F := by
  rintro ext fc n rest hfc ⟨hn, A, rfl⟩
  rw [List.append_assoc] at h
  have h1 := containedB_tail h
  have hlen : (headBytes ext fc n ++ rest).length = hlen ext + rest.length := by rw [List.length_append, headBytes_length]
  have hany : [cc 'm' 'o' 'o' 'v', cc 'u' 'd' 't' 'a', cc 'm' 'e' 't' 'a', cc 'i' 'l' 's' 't'].any
      (fun c => ((headBytes ext fc n ++ rest).drop 4).take 4 == c.bytes) = true := by
    refine List.any_eq_true.mpr ⟨fc, hfc, beq_iff_eq.mpr ?_⟩
    cases ext <;> simp [headBytes, be32, Fourcc.bytes]
  rw [← hlen]
  cases ext with
  | false =>
    have h2 : (headBytes false fc n ++ rest).take 4 = be32 n := by
      simp [headBytes, be32]
    generalize hg : headBytes false fc n ++ rest = G at *
    match G, h1 with
    | [], _ => cases hg' : be32 n <;> simp_all [be32]
    | x :: G, h1 =>
      rw [containedB, Bool.and_eq_true, if_pos hany] at h1
      have := (of_decide_eq_true h1.1).1
      rw [h2, beNat_be32 n hn] at this
      exact this
  | true =>
    have h3 : ((headBytes true fc n ++ rest).drop 8).take 8 = be64 n := by
      have : headBytes true fc n ++ rest = (be32 1 ++ fc.bytes) ++ (be64 n ++ rest) := by simp [headBytes]
      rw [this, List.drop_left' (by rfl), List.take_left' (by rfl)]
    have h2 : (headBytes true fc n ++ rest).take 4 = [0, 0, 0, 1] := by
      simp [headBytes, be32]
    generalize hg : headBytes true fc n ++ rest = G at *
    match G, h1 with
    | [], _ => simp at h2
    | x :: G, h1 =>
      rw [containedB, Bool.and_eq_true, if_pos hany] at h1
      have := (of_decide_eq_true h1.1).2 h2
      rw [h3, beNat_be64 n hn] at this
      exact this

theorem noCo64_of {F : Bytes} (h : anyTail (fun s => (s.drop 4).take 4 = (cc 'c' 'o' '6' '4').bytes) F = false) : NoCo64 F :=
  fun _ _ _ hin => by
    have := headIn_anyTail hin
    rw [h] at this
    cases this

/-- The media data is cut off, and there is a `moov` in it. -/
def cutEx : Bytes := fileEx.ser.take 470 ++ be32 100 ++ (cc 'm' 'd' 'a' 't').bytes ++ be32 9 ++ (cc 'm' 'o' 'o' 'v').bytes ++ [3]

example : ∀ checked, (writeTag { env0 with checked := checked } cutEx 0 { tagEx with atoms := atomsW }).1 ≠ .panic :=
  fun checked => C62_checked_partial { env0 with checked := checked } cutEx 0 _ (by show _ ≤ env0.maxPos; decide +kernel)
    (by show env0.maxPos < _; decide) (by show _ < env0.fuel; decide +kernel)
    (saneB_sound (by decide +kernel)) (containedB_sound (by decide +kernel)) (noCo64_of (by decide +kernel)) (by decide +kernel)
    (by decide +kernel)
example : (writeTag env0 cutEx 0 { tagEx with atoms := atomsW }).1 = .ok () := by decide +kernel

/-- **C62 is false**: a file cut off within its item list makes writing panic in every build: the search seeks beyond the end of the
file without an error, and then the length of the data behind the item list is computed (src/atom/mod.rs:448-449). The file is
not changed. -/
theorem C62_refuted : ¬ WriteNeverPanics ∧ fileEx.WF ∧ ∀ checked,
    writeTag { env0 with checked := checked } (fileEx.ser.take 400) 0 { tagEx with atoms := atomsW } = (.panic, fileEx.ser.take 400) := by
  have h : ∀ checked,
    writeTag { env0 with checked := checked } (fileEx.ser.take 400) 0 { tagEx with atoms := atomsW } = (.panic, fileEx.ser.take 400) := by
    intro checked
    cases checked <;> decide +kernel
  refine ⟨fun hn => ?_, fileEx_WF, h⟩
  have := hn env0 (fileEx.ser.take 400) 0 { tagEx with atoms := atomsW } (by decide +kernel) (by decide) (by decide +kernel)
  exact this (congrArg Prod.fst (h true))

/-- Cut off within the head of the item list, it is an error; reading is an error in both cases. -/
example : (writeTag env0 (fileEx.ser.take 325) 0 { tagEx with atoms := atomsW }).1 = .err .io := by decide +kernel
example : readTag env0 (fileEx.ser.take 400) 0 = .err .io := by decide +kernel

/-- Without sane sizes: the size of `ftyp` is smaller than its head. -/
example : ∀ checked, (writeTag { env0 with checked := checked } (be32 1 ++ (cc 'f' 't' 'y' 'p').bytes ++ be64 15 ++ [1, 2, 3]) 0 tagEx).1 = .panic := by
  intro checked; cases checked <;> decide +kernel

/-- As `fileW`, with a second track: its only chunk offset is 2^63. -/
def fileHuge (o : Nat) : File :=
  { fileW with
    moov := [.raw mvhdEx, .trak false (trakW o), .trak false [.node false [.node false [.node false
      [⟨false, cc 'c' 'o' '6' '4', [0, 0, 0, 0] ++ be32 1 ++ be64 (2^63)⟩]]]], .udta true [.node false metaEx]] }

/-- **C62 is false** for well-formed files as well: with overflow checks, a chunk offset of 2^63 makes writing panic, after the offsets
of the first track have been rewritten. -/
theorem C62_refuted_co64 : (fileHuge 546).WF ∧ (fileHuge 546).InMdat 0 546 3 ∧
    writeTag env0 (fileHuge 546).ser 0 { tagEx with atoms := atomsW } = (.panic, (fileHuge 500).ser) ∧
    bytesAt (fileHuge 546).ser 546 3 = [1, 2, 3] ∧ bytesAt (fileHuge 500).ser 500 3 ≠ [1, 2, 3] := by
  refine ⟨by decide +kernel, .inr ⟨[], ⟨false, cc 'm' 'd' 'a' 't', [1, 2, 3]⟩, [], rfl, rfl, by decide +kernel, by decide +kernel⟩, ?_,
    by decide +kernel, by decide +kernel⟩
  decide +kernel

end Mp4.Props
