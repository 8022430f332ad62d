import Verif.Proof.ReadErr
import Verif.Proof.Trunc
import Verif.Props.Read
/-
C37, C38, C39, C57: input that is not a well-formed file.
-/
namespace Mp4.Props
open Mp4 Spec

/-! ### C37 -/

/-- A complete head: 32 bit size and identifier, and 8 more bytes if the size is 1. -/
theorem parseHead_any (e : Env) (X Y : Bytes) (len : Nat) (fc : Fourcc) (h32 : len < 2^32)
    (hl : len = 1 ∧ 8 ≤ Y.length ∨ 8 ≤ len) :
    ∃ s p, parseHead e (X ++ be32 len ++ fc.bytes ++ Y) X.length = .ok (⟨s, fc⟩, p) := by
  have a1 : At (X ++ be32 len ++ fc.bytes ++ Y) X.length (be32 len) := At_intro' X (fc.bytes ++ Y) (by simp) rfl
  have a2 : At (X ++ be32 len ++ fc.bytes ++ Y) (X.length + 4) fc.bytes :=
    At_intro' (X ++ be32 len) Y (by simp) (by simp [be32_length])
  rw [parseHead, P.bind_ok (readU32_at a1 h32 e), P.bind_ok (readExact_at' (n := 4) a2 rfl e)]
  simp only [fourcc_bytes]
  rcases hl with ⟨rfl, hy⟩ | hl
  · have a3 : At (X ++ be32 1 ++ fc.bytes ++ Y) (X.length + 4 + 4) (Y.take 8) := by
      refine At_intro' (X ++ be32 1 ++ fc.bytes) (Y.drop 8) ?_ (by simp [be32_length, Fourcc.bytes])
      simp [List.take_append_drop]
    have h8 : (Y.take 8).length = 8 := by rw [List.length_take]; omega
    have hu : readU64 e (X ++ be32 1 ++ fc.bytes ++ Y) (X.length + 4 + 4)
        = .ok (beNat (Y.take 8), X.length + 4 + 4 + 8) := by
      rw [readU64, P.bind_ok (readExact_at' a3 h8 e)]; rfl
    rw [if_pos rfl, P.bind_ok hu]
    exact ⟨_, _, rfl⟩
  · rw [if_neg (by omega), if_neg (by omega)]
    exact ⟨_, _, rfl⟩

/-- A head with a 64 bit size. -/
theorem parseHead_ext (e : Env) (X Y : Bytes) (n : Nat) (fc : Fourcc) (h : n < 2^64) :
    parseHead e (X ++ (be32 1 ++ fc.bytes ++ be64 n) ++ Y) X.length = .ok (⟨⟨true, n⟩, fc⟩, X.length + 16) := by
  have a := At_intro X (be32 1 ++ fc.bytes ++ be64 n) Y
  have a1 := a.left.left
  have a2 := a.left.right (n := 4) rfl
  have a3 := a.right (n := 8) rfl
  rw [parseHead, P.bind_ok (readU32_at a1 (by decide) e), P.bind_ok (readExact_at' (n := 4) a2 rfl e)]
  simp only [fourcc_bytes, if_true]
  rw [P.bind_ok (readU64_at a3 h e)]; rfl

theorem parseFtyp_noTag (e : Env) (X Y : Bytes) (len : Nat) (fc : Fourcc) (h32 : len < 2^32)
    (hl : len = 1 ∧ 8 ≤ Y.length ∨ 8 ≤ len) (hfc : fc ≠ cc 'f' 't' 'y' 'p') :
    parseFtyp e (X ++ be32 len ++ fc.bytes ++ Y) X.length = .err .noTag := by
  obtain ⟨s, p, h⟩ := parseHead_any e X Y len fc h32 hl
  have hfc' : fc ≠ FILETYPE := hfc
  rw [parseFtyp, P.bind_ok h]
  simp only [if_pos hfc']; rfl

/-- **C37.** If the first atom is not `ftyp`, reading fails with `NoTag`. Nothing is assumed about what follows
the head of the first atom. -/
theorem C37_no_ftyp (e : Env) (X Y : Bytes) (len : Nat) (fc : Fourcc) (h32 : len < 2^32)
    (hl : len = 1 ∧ 8 ≤ Y.length ∨ 8 ≤ len) (hfc : fc ≠ cc 'f' 't' 'y' 'p') :
    readTag e (X ++ be32 len ++ fc.bytes ++ Y) X.length = .err .noTag := by
  rw [readTag, readTagP, P.bind_err (parseFtyp_noTag e X Y len fc h32 hl hfc)]; rfl

/-- **C37.** The same for writing, which leaves the file unchanged. -/
theorem C37_no_ftyp_write (e : Env) (X Y : Bytes) (len : Nat) (fc : Fourcc) (t : Tag) (h32 : len < 2^32)
    (hl : len = 1 ∧ 8 ≤ Y.length ∨ 8 ≤ len) (hfc : fc ≠ cc 'f' 't' 'y' 'p') :
    writeTag e (X ++ be32 len ++ fc.bytes ++ Y) X.length t = (.err .noTag, X ++ be32 len ++ fc.bytes ++ Y) := by
  have h : preparePhase t.atoms e (X ++ be32 len ++ fc.bytes ++ Y) X.length = .err .noTag := by
    rw [preparePhase, P.bind_err]
    rw [findTop, P.bind_err (parseFtyp_noTag e X Y len fc h32 hl hfc)]
  rw [writeTag, writeTagTo, h]

example : readTag env0 (be32 12 ++ (cc 'm' 'o' 'o' 'v').bytes ++ [1, 2, 3, 4]) 0 = .err .noTag :=
  C37_no_ftyp env0 [] [1, 2, 3, 4] 12 _ (by decide) (by decide) (by decide)
example : (writeTag env0 (be32 12 ++ (cc 'm' 'o' 'o' 'v').bytes ++ [1, 2, 3, 4]) 0 {}).1 = .err .noTag := by decide +kernel

/-- **C37.** A file without `moov` is rejected with `AtomNotFound(moov)`. -/
theorem C37_no_moov (e : Env) (X : Bytes) (ext : Bool) (ftyp : Str) (boxes : List Box)
    (hF : Fit e (X ++ (⟨ext, cc 'f' 't' 'y' 'p', utf8 ftyp⟩ : Box).ser ++ serL id boxes))
    (h1 : (⟨ext, cc 'f' 't' 'y' 'p', utf8 ftyp⟩ : Box).Fits)
    (h2 : ∀ b ∈ boxes, b.Fits ∧ b.fc ≠ cc 'm' 'o' 'o' 'v') :
    readTag e (X ++ (⟨ext, cc 'f' 't' 'y' 'p', utf8 ftyp⟩ : Box).ser ++ serL id boxes) X.length
      = .err (.atomNotFound (cc 'm' 'o' 'o' 'v')) := by
  have a1 : At (X ++ (⟨ext, cc 'f' 't' 'y' 'p', utf8 ftyp⟩ : Box).ser ++ serL id boxes) X.length
      (⟨ext, cc 'f' 't' 'y' 'p', utf8 ftyp⟩ : Box).ser := At_intro _ _ _
  have a2 := At_intro' (F := X ++ (⟨ext, cc 'f' 't' 'y' 'p', utf8 ftyp⟩ : Box).ser ++ serL id boxes)
    (c := serL id boxes) (X ++ (⟨ext, cc 'f' 't' 'y' 'p', utf8 ftyp⟩ : Box).ser) [] (by simp) rfl
  have hft := parseFtyp_at hF h1 a1
  generalize hbx : (⟨ext, cc 'f' 't' 'y' 'p', utf8 ftyp⟩ : Box) = fb at *
  rw [List.length_append] at a2
  have hle := a2.le
  have hlen := serL_length_le id boxes
  have hfuel := hF.fuel
  have htop := topWalk_none hF boxes e.fuel 0 (X.length + fb.ser.length)
    ((X ++ fb.ser ++ serL id boxes).length - (X.length + fb.ser.length)) h2 a2
    (by simp only [List.length_append]; omega) (by omega) (by simp only [List.length_append] at hfuel; omega)
  rw [readTag, readTagP, P.bind_ok hft,
    P.bind_ok (remaining_at hF (show X.length + fb.ser.length ≤ (X ++ fb.ser ++ serL id boxes).length by omega)),
    P.bind_ok (show getFuel e _ _ = .ok (e.fuel, _) from rfl), P.bind_err htop]
  rfl

/-- The search loop of writing over the top level atoms of a file without `moov`. -/
theorem findTop_none {e F p} {boxes : List Box} (hF : Fit e F) (h : ∀ b ∈ boxes, b.Fits ∧ b.fc ≠ cc 'm' 'o' 'o' 'v')
    (hat : At F p (serL id boxes)) (mo : Option MoovBounds) (md : Option AtomBounds) :
    ∃ md', loop (pure (serL id boxes).length) (fun (s : TopBounds) h =>
      if h.fourcc = MOVIE then do let a ← findMoov h.size; pure { s with moov := some a }
      else if h.fourcc = MEDIA_DATA then do let a ← findLeaf h.size; pure { s with mdat := some a }
      else do skipContent h; pure s) ⟨mo, md⟩ 0 e F p = .ok (⟨mo, md'⟩, p + (serL id boxes).length) := by
  have h0 := hF.len
  have h1 := hF.pos
  obtain ⟨s', hs, hI⟩ := loop_rel (box := id) (ks := boxes) (s := (⟨mo, md⟩ : TopBounds)) (p := p) (parsed := 0)
    (limit := pure (serL id boxes).length)
    (handle := fun (s : TopBounds) h =>
      if h.fourcc = MOVIE then do let a ← findMoov h.size; pure { s with moov := some a }
      else if h.fourcc = MEDIA_DATA then do let a ← findLeaf h.size; pure { s with mdat := some a }
      else do skipContent h; pure s)
    (fun _ s => s.moov = mo) hF (by rw [Nat.zero_add]; rfl) (fun b hb => (h b hb).1)
    (by
      intro b hb done q s hs hat
      have hn : ¬ (id b).hd.fourcc = MOVIE := (h b hb).2
      have hle := hat.le
      have hsl := (id b).ser_length
      rw [if_neg hn]
      by_cases hm : (id b).hd.fourcc = MEDIA_DATA
      · refine ⟨⟨s.moov, some ⟨q, b.size⟩⟩, ?_, hs⟩
        rw [if_pos hm]
        have : findLeaf (id b).hd.size e F (q + (id b).headLen) = .ok (⟨q, b.size⟩, q + (id b).ser.length) := by
          have hb : findBounds (id b).hd.size e F (q + (id b).headLen) = .ok (⟨q, b.size⟩, q + (id b).headLen) :=
            findBounds_box b e
          have he : (⟨q, b.size⟩ : AtomBounds).pos + (⟨q, b.size⟩ : AtomBounds).size.len = q + (id b).ser.length := by
            rw [hsl]; rfl
          rw [findLeaf, P.bind_ok hb, P.bind_ok (seekToEnd_ok _ (by omega) he (by omega) (by omega))]; rfl
        rw [P.bind_ok this]; rfl
      · refine ⟨s, ?_, hs⟩
        rw [if_neg hm, P.bind_ok (skipContent_box hat hF)]; rfl)
    rfl hat (by omega)
  obtain ⟨mo', md'⟩ := s'
  simp only [List.nil_append] at hI
  subst hI
  exact ⟨md', hs⟩

/-- **C37.** The same for writing, which leaves the file unchanged. -/
theorem C37_no_moov_write (e : Env) (X : Bytes) (ext : Bool) (ftyp : Str) (boxes : List Box) (t : Tag)
    (hF : Fit e (X ++ (⟨ext, cc 'f' 't' 'y' 'p', utf8 ftyp⟩ : Box).ser ++ serL id boxes))
    (h1 : (⟨ext, cc 'f' 't' 'y' 'p', utf8 ftyp⟩ : Box).Fits)
    (h2 : ∀ b ∈ boxes, b.Fits ∧ b.fc ≠ cc 'm' 'o' 'o' 'v') :
    writeTag e (X ++ (⟨ext, cc 'f' 't' 'y' 'p', utf8 ftyp⟩ : Box).ser ++ serL id boxes) X.length t
      = (.err (.atomNotFound (cc 'm' 'o' 'o' 'v')),
         X ++ (⟨ext, cc 'f' 't' 'y' 'p', utf8 ftyp⟩ : Box).ser ++ serL id boxes) := by
  have a1 : At (X ++ (⟨ext, cc 'f' 't' 'y' 'p', utf8 ftyp⟩ : Box).ser ++ serL id boxes) X.length
      (⟨ext, cc 'f' 't' 'y' 'p', utf8 ftyp⟩ : Box).ser := At_intro _ _ _
  have a2 := At_intro' (F := X ++ (⟨ext, cc 'f' 't' 'y' 'p', utf8 ftyp⟩ : Box).ser ++ serL id boxes)
    (c := serL id boxes) (X ++ (⟨ext, cc 'f' 't' 'y' 'p', utf8 ftyp⟩ : Box).ser) [] (by simp) rfl
  have hft := parseFtyp_at hF h1 a1
  generalize hbx : (⟨ext, cc 'f' 't' 'y' 'p', utf8 ftyp⟩ : Box) = fb at *
  rw [List.length_append] at a2
  have hle := a2.le
  have hrem := remaining_at hF (show X.length + fb.ser.length ≤ (X ++ fb.ser ++ serL id boxes).length by omega)
  have hl : (X ++ fb.ser ++ serL id boxes).length - (X.length + fb.ser.length) = (serL id boxes).length := by
    simp only [List.length_append]; omega
  rw [hl] at hrem
  obtain ⟨md', hloop⟩ := findTop_none hF h2 a2 none none
  have h : preparePhase t.atoms e (X ++ fb.ser ++ serL id boxes) X.length
      = .err (.atomNotFound (cc 'm' 'o' 'o' 'v')) := by
    rw [preparePhase, P.bind_err]
    rw [findTop, P.bind_ok hft, P.bind_ok hrem]
    exact P.bind_ok hloop
  rw [writeTag, writeTagTo, h]

/-- **C37.** A file that is well-formed up to a first defect inside `moov` (an unknown version, an unknown data type,
text that cannot be decoded, a missing mandatory atom) is rejected with the error describing this defect. -/
theorem C37_defect (e : Env) (X Y : Bytes) (ext : Bool) (ftyp : Str) (pre : List Box) (moov : Box) (k : ErrKind)
    (hF : Fit e (X ++ ((⟨ext, cc 'f' 't' 'y' 'p', utf8 ftyp⟩ : Box).ser ++ (serL id pre ++ moov.ser)) ++ Y))
    (h1 : (⟨ext, cc 'f' 't' 'y' 'p', utf8 ftyp⟩ : Box).Fits) (h2 : moov.Fits) (hm : moov.fc = cc 'm' 'o' 'o' 'v')
    (h4 : ∀ b ∈ pre, b.Fits ∧ b.fc ≠ cc 'm' 'o' 'o' 'v') (hb : MoovBad moov.body k) :
    readTag e (X ++ ((⟨ext, cc 'f' 't' 'y' 'p', utf8 ftyp⟩ : Box).ser ++ (serL id pre ++ moov.ser)) ++ Y) X.length
      = .err k :=
  readTag_err hF h1 h2 hm h4 hb (At_intro _ _ _)

/-! Concrete defects -/

/-- A track without defect, then user data whose metadata holds a good item and then one with the unknown data type 99. -/
def badIlstEx : Box :=
  ⟨false, cc 'i' 'l' 's' 't', serL Entry.box entriesEx ++
    (⟨false, cc 't' 'm' 'p' 'o',
      serL Part.box [.data false 1 [0, 0, 0, 0] (utf8 ['a']) (.utf8 ['a'])] ++
      (⟨false, cc 'd' 'a' 't' 'a', be32 99 ++ [0, 0, 0, 0] ++ [1, 2]⟩ : Box).ser ++ [7]⟩ : Box).ser ++ [8]⟩
def badMetaEx : Box := ⟨false, cc 'm' 'e' 't' 'a', 0 :: [0, 0, 0] ++ (serL id [hdlrBox] ++ badIlstEx.ser ++ [])⟩
def badMoovEx : Box :=
  ⟨false, cc 'm' 'o' 'o' 'v', serL MoovKid.box [.trak false []] ++
    (⟨true, cc 'u' 'd' 't' 'a', badMetaEx.ser⟩ : Box).ser ++ [9]⟩

theorem badMoovEx_bad : MoovBad badMoovEx.body (.unknownDataType 99) := by
  refine ⟨[.trak false []], ⟨true, cc 'u' 'd' 't' 'a', badMetaEx.ser⟩, [9], ?_, by decide, .inr (.inr ⟨rfl, ?_⟩), rfl⟩
  · intro x hx
    rw [List.mem_singleton] at hx
    subst hx
    refine ⟨by decide, ⟨by decide, by simp [Trak.WF]⟩, by simp [MoovKid.mvhd?], ?_, by simp [MoovKid.udta?]⟩
    intro t ht
    simp only [MoovKid.trak?, Option.some.injEq] at ht
    subst ht
    exact ⟨none, none, ⟨by simp, rfl⟩, rfl⟩
  · refine ⟨[], badMetaEx, [], by simp, by decide +kernel, ⟨rfl, .inr ⟨[0, 0, 0], _, rfl, rfl, ?_⟩⟩, by simp [serL_nil]⟩
    refine ⟨[hdlrBox], badIlstEx, [], ?_, by decide +kernel, ⟨rfl, ?_⟩, rfl⟩
    · intro x hx
      rw [List.mem_singleton] at hx
      subst hx
      refine ⟨by decide, fun h => ?_⟩
      exact absurd h (by decide)
    · refine ⟨entriesEx, _, [8], ?_, ?_, ⟨by decide, .inl ⟨[.data false 1 [0, 0, 0, 0] (utf8 ['a']) (.utf8 ['a'])], _, [7],
        ?_, ?_, ?_, rfl⟩⟩, rfl⟩
      · intro x hx
        exact ⟨(entriesEx_WF x hx).1, entriesEx_WF x hx⟩
      · decide +kernel
      · intro x hx
        rw [List.mem_singleton] at hx
        subst hx
        exact ⟨by decide, by decide, rfl, .utf8 _⟩
      · decide
      · exact .type false 99 [0, 0, 0, 0] [1, 2] (by decide) (by decide) rfl

example : readTag env0 ((⟨false, cc 'f' 't' 'y' 'p', utf8 ['M', '4', 'A']⟩ : Box).ser ++ badMoovEx.ser) 0
    = .err (.unknownDataType 99) := by decide +kernel

example : ∃ k, BadVersion [1, 0, 0, 0] k ∧ k = .unknownVersion 1 := ⟨_, ⟨1, [0, 0, 0], [], by decide, rfl, rfl, rfl⟩, rfl⟩
example : readTag env0 ((⟨false, cc 'f' 't' 'y' 'p', utf8 ['M', '4', 'A']⟩ : Box).ser ++
    (⟨false, cc 'm' 'o' 'o' 'v', (⟨false, cc 'm' 'v' 'h' 'd', [2, 0, 0, 0]⟩ : Box).ser⟩ : Box).ser) 0
    = .err (.unknownVersion 2) := by decide +kernel

/-! ### C38 -/

/-- **C38**, full statement: reading ends, for every input and in every build. -/
def ReadTerminates (checked : Bool) : Prop :=
  ∃ n, ∀ e : Env, e.checked = checked → n ≤ e.fuel → ∀ F p, readTag e F p ≠ .fuel

/-- **C38** holds in builds with overflow checks: no loop runs more than 2^61 + 1 times. Missing: builds without
overflow checks, for which it is false. -/
theorem C38_partial : ReadTerminates true := by
  refine ⟨2^61 + 1, fun e hc hf F p => ?_⟩
  have h := Term.readTagP hc (show Enough e by unfold Enough; omega) F p
  rw [readTag]
  cases hr : readTagP e F p with
  | ok x => simp [Out.val]
  | err k => simp [Out.val]
  | panic => simp [Out.val]
  | fuel => exact absurd hr h

/-- **C38.** Writing ends in builds with overflow checks, too. -/
theorem C38_partial_write : ∃ n, ∀ e : Env, e.checked = true → n ≤ e.fuel → ∀ F p t, (writeTag e F p t).1 ≠ .fuel :=
  ⟨2^61 + 1, fun e hc hf F p t => writeTagTo_nf hc (show Enough e by unfold Enough; omega) F p t.atoms⟩

/-- `ftyp`, then a 64 bit head with size 0. -/
def loopFile : Bytes :=
  (⟨false, cc 'f' 't' 'y' 'p', []⟩ : Box).ser ++ (be32 1 ++ (cc 'f' 'r' 'e' 'e').bytes ++ be64 0)

theorem loopFile_walk (e : Env) (hc : e.checked = false) (hm : 24 ≤ e.maxPos) :
    ∀ f, topWalk 16 f 0 e loopFile 8 = .fuel := by
  intro f
  induction f with
  | zero => rfl
  | succ f ih =>
    have h1 : parseHead e loopFile 8 = .ok (⟨⟨true, 0⟩, cc 'f' 'r' 'e' 'e'⟩, 24) := by
      have := parseHead_ext e (⟨false, cc 'f' 't' 'y' 'p', []⟩ : Box).ser [] 0 (cc 'f' 'r' 'e' 'e') (by decide)
      rw [List.append_nil] at this; exact this
    have h2 : skipContent ⟨⟨true, 0⟩, cc 'f' 'r' 'e' 'e'⟩ e loopFile 24 = .ok ((), 8) := by
      have h3 : (⟨true, 0⟩ : Size).contentLen e = .ok (2^64 - 16) := by
        simp [Size.contentLen, subU, hc]
      rw [skipContent, P.bind_ok (E.p_ok h3 _ _)]
      have : asI64 (2^64 - 16) = -16 := by decide
      rw [this, seekCur, if_pos (by omega)]
      rfl
    have h4 : addU 0 0 e = .ok 0 := rfl
    rw [topWalk, P.if_apply, if_neg (by decide), P.bind_ok h1, P.if_apply, if_neg (by decide), P.bind_ok h2,
      P.bind_ok (E.p_ok h4 _ _)]
    exact ih

/-- **C38** is false in builds without overflow checks: an atom with a 64 bit size of 0 is read again and again,
whatever the number of iterations allowed. -/
theorem C38_refuted : ¬ ReadTerminates false := by
  rintro ⟨n, h⟩
  let e : Env := ⟨false, n + 100, 2^63 - 1, 8192, fun _ => 0⟩
  have hF : Fit e loopFile := ⟨show _ ≤ 2^63 - 1 by decide, by decide, show _ < n + 100 from Nat.lt_of_lt_of_le (by decide : _ < 100) (Nat.le_add_left _ _)⟩
  refine h e rfl (Nat.le_add_right _ _) loopFile 0 ?_
  have h1 : parseFtyp e loopFile 0 = .ok ([], 8) :=
    parseFtyp_at (ext := false) (s := []) hF (by decide) (At_intro [] _ _)
  have h2 : remainingStreamLen e loopFile 8 = .ok (16, 8) := remaining_at hF (by decide)
  rw [readTag, readTagP, P.bind_ok h1, P.bind_ok h2, P.bind_ok (show getFuel e _ _ = .ok (n + 100, 8) from rfl), P.bind_apply,
    loopFile_walk e rfl (show 24 ≤ 2^63 - 1 by decide) (n + 100)]
  rfl

example : readTag { env0 with checked := false, fuel := 1000 } loopFile 0 = .fuel := by decide +kernel
example : readTag { env0 with checked := true } loopFile 0 = .panic := by decide +kernel

/-! ### C39 -/

/-- **C39**, full statement: reading never panics. -/
def NeverPanics (checked : Bool) : Prop := ∀ e : Env, e.checked = checked → ∀ F p, readTag e F p ≠ .panic

/-- A movie header with timescale 0. -/
def zeroScale : Bytes :=
  (⟨false, cc 'f' 't' 'y' 'p', []⟩ : Box).ser ++ (⟨false, cc 'm' 'o' 'o' 'v',
    (⟨false, cc 'm' 'v' 'h' 'd', 0 :: [0, 0, 0] ++ List.replicate 8 3 ++ be32 0 ++ be32 1000⟩ : Box).ser⟩ : Box).ser

/-- **C39** is false in every build: a movie header with timescale 0 divides by zero. -/
theorem C39_refuted (checked : Bool) : ¬ NeverPanics checked := by
  intro h
  refine h ⟨checked, 100, 2^63 - 1, 8192, fun _ => 0⟩ rfl zeroScale 0 ?_
  cases checked <;> decide +kernel

/-- **C39** is false in every build: a `ftyp` atom with a 64 bit size of 2^63 + 16 or more requests an impossible
allocation. -/
theorem C39_refuted_alloc (e : Env) (X Y : Bytes) (n : Nat) (h1 : 2^63 + 16 ≤ n) (h2 : n < 2^64) :
    readTag e (X ++ (be32 1 ++ (cc 'f' 't' 'y' 'p').bytes ++ be64 n) ++ Y) X.length = .panic := by
  have hh := parseHead_ext e X Y n (cc 'f' 't' 'y' 'p') h2
  have hc : (⟨true, n⟩ : Size).contentLen e = .ok (n - 16) := by
    simp only [Size.contentLen, subU, if_true]; rw [if_pos (by omega)]
  have ha : allocU8 (n - 16) e = .panic := by rw [allocU8, if_pos (by omega)]
  generalize X ++ (be32 1 ++ (cc 'f' 't' 'y' 'p').bytes ++ be64 n) ++ Y = F at hh ⊢
  have : parseFtyp e F X.length = .panic := by
    rw [parseFtyp, P.bind_ok hh]
    simp only
    rw [if_neg (by decide), P.bind_ok (E.p_ok hc _ _), readUtf8, readU8Vec, P.bind_apply, P.bind_apply, E.p, ha]
  rw [readTag, readTagP, P.bind_apply, this]; rfl

/-- **C39** is false in every build: a `data` atom of less than 16 bytes. -/
def shortData : Bytes :=
  (⟨false, cc 'f' 't' 'y' 'p', []⟩ : Box).ser ++ (⟨false, cc 'm' 'o' 'o' 'v', (⟨false, cc 'u' 'd' 't' 'a',
    (⟨false, cc 'm' 'e' 't' 'a', [0, 0, 0, 0] ++ (⟨false, cc 'i' 'l' 's' 't', (⟨false, cc '©' 'n' 'a' 'm',
      (⟨false, cc 'd' 'a' 't' 'a', [0, 0, 0, 1]⟩ : Box).ser⟩ : Box).ser⟩ : Box).ser⟩ : Box).ser⟩ : Box).ser⟩ : Box).ser

theorem C39_refuted_short_data (checked : Bool) :
    readTag ⟨checked, 100, 2^63 - 1, 8192, fun _ => 0⟩ shortData 0 = .panic := by cases checked <;> decide +kernel

/-- **C39** is false in builds with overflow checks: a version 1 movie header with a duration of 2^40. -/
theorem C39_refuted_duration :
    readTag ⟨true, 100, 2^63 - 1, 8192, fun _ => 0⟩ ((⟨false, cc 'f' 't' 'y' 'p', []⟩ : Box).ser ++
      (⟨false, cc 'm' 'o' 'o' 'v', (⟨false, cc 'm' 'v' 'h' 'd',
        1 :: [0, 0, 0] ++ List.replicate 16 3 ++ be32 1 ++ be64 (2^40)⟩ : Box).ser⟩ : Box).ser) 0 = .panic := by
  decide +kernel

/-- **C39** for well-formed files, cut off anywhere. Missing: other input, for which it is false in general. -/
theorem C39_partial (e : Env) (X Y : Bytes) (f : File) (t : Tag) (n : Nat) (hF : Fit e (X ++ f.ser ++ Y)) (hw : f.WF)
    (hc : f.Content t) : readTag e ((X ++ f.ser ++ Y).take n) X.length ≠ .panic := by
  rcases readTag_trunc e (X ++ f.ser ++ Y) n X.length with h | h | h
  · rw [h, read_spec hF hw hc]; simp
  · rw [h]; simp
  · rw [h]; simp

example : readTag env0 (fileEx.ser.take 300) 0 = .err .io := by decide +kernel

/-! ### C57 -/

/-- **C57.** A truncated input never yields a different tag: reading it has the same outcome as reading the whole
input, or fails with an I/O error or `AtomNotFound(moov)`. -/
theorem C57_truncated (e : Env) (F : Bytes) (n p : Nat) :
    readTag e (F.take n) p = readTag e F p ∨ readTag e (F.take n) p = .err .io ∨
    readTag e (F.take n) p = .err (.atomNotFound (cc 'm' 'o' 'o' 'v')) := readTag_trunc e F n p

/-- **C57.** A tag read from a truncated input is the tag of the whole input. -/
theorem C57_same_tag (e : Env) (F : Bytes) (n p : Nat) (t : Tag) (h : readTag e (F.take n) p = .ok t) :
    readTag e F p = .ok t := by
  rcases readTag_trunc e F n p with h' | h' | h'
  · rw [← h', h]
  · rw [h] at h'; simp at h'
  · rw [h] at h'; simp at h'

/-- **C57.** Appending to an input from which a tag can be read does not change the tag. -/
theorem C57_appended (e : Env) (F G : Bytes) (p : Nat) (t : Tag) (h : readTag e F p = .ok t) :
    readTag e (F ++ G) p = .ok t := by
  refine C57_same_tag e (F ++ G) F.length p t ?_
  rw [List.take_left]; exact h

example : readTag env0 (fileEx.ser.take (fileEx.ser.length - 5)) 0 = .ok tagEx := by decide +kernel
example : readTag env0 (fileEx.ser.take 40) 0 = .err .io := by decide +kernel
example : readTag env0 (fileEx.ser.take 29) 0 = .err (.atomNotFound (cc 'm' 'o' 'o' 'v')) := by decide +kernel

end Mp4.Props
