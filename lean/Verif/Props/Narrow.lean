import Verif.Proof.Narrow
import Verif.Proof.Amplify
import Verif.Props.Accept
import Verif.Props.Read

/-! # C98: builds in which `usize` has 32 bits -/

namespace Mp4.Props

open Mp4 Spec

/-- **C98.** Reading: every file below 2^31 bytes that is read with a 64-bit `usize` is read as the same tag with a 32-bit one. -/
theorem C98_read (e : Env) (F : Bytes) (pos : Nat) (t : Tag) (hF : F.length < 2^31) (h : readTag e F pos = .ok t) :
    readTag32 e F pos = .ok t := by
  unfold readTag at h
  unfold readTag32
  cases hp : readTagP e F pos with
  | ok r =>
    obtain ⟨a, q⟩ := r
    rw [NSim.readTagP hF _ _ _ hp]
    rw [hp] at h
    exact h
  | err k => rw [hp] at h; cases h
  | panic => rw [hp] at h; cases h
  | fuel => rw [hp] at h; cases h

/-- **C98.** Saving: every save to a file below 2^31 bytes that succeeds with a 64-bit `usize` succeeds with a 32-bit one, with the same
file. -/
theorem C98_write (e : Env) (F G : Bytes) (pos : Nat) (t : Tag) (hM : e.maxPos < 2^63) (hF : F.length < 2^31)
    (h : writeTag e F pos t = (.ok (), G)) : writeTag32 e F pos t = (.ok (), G) := by
  obtain ⟨h1, h2⟩ := Prod.mk.inj h
  have h3 : writeTagTo e F pos t.atoms = (.ok (), (writeTagTo e F pos t.atoms).2) := Prod.ext h1 rfl
  unfold writeTag32
  rw [writeTagTo_sim hM hF h3, ← h2]

/-- **C98.** With overflow checks, a save with a 32-bit `usize` that succeeds leaves the file that a 64-bit one leaves, whatever the size
of the file. -/
theorem C98_write_back (e : Env) (F G : Bytes) (pos : Nat) (t : Tag) (hc : e.checked = true) (hF : F.length < 2^63)
    (h : writeTag32 e F pos t = (.ok (), G)) : writeTag e F pos t = (.ok (), G) := by
  obtain ⟨h1, h2⟩ := Prod.mk.inj h
  have h3 : writeTagTo32 e F pos t.atoms = (.ok (), (writeTagTo32 e F pos t.atoms).2) := Prod.ext h1 rfl
  unfold writeTag
  rw [writeTagTo_back hc hF h3, ← h2]

theorem readTagP32_ftyp {e : Env} {F : Bytes} {pos n : Nat} {ext : Bool} (h : At F pos (headBytes ext FILETYPE (hlen ext + n)))
    (hn : hlen ext + n < if ext then 2^64 else 2^32) :
    readTagP32 e F pos = (do
      let ftyp ← readUtf832 n
      let len ← remainingStreamLen
      let f ← getFuel
      let moov ← topWalk32 len f 0
      pure (mkTag ftyp moov)) e F (pos + hlen ext) ∧
    readTagP e F pos = (do
      let ftyp ← readUtf8 n
      let len ← remainingStreamLen
      let f ← getFuel
      let moov ← topWalk len f 0
      pure (mkTag ftyp moov)) e F (pos + hlen ext) := by
  have hh := parseHead_raw (e := e) h hn (fun hx => by subst hx; unfold hlen; simp)
  have hs : Size.contentLen ⟨ext, hlen ext + n⟩ e = .ok n := by
    cases ext <;> simp [Size.contentLen, hlen, subU]
  have h1 : parseFtyp32 e F pos = readUtf832 n e F (pos + hlen ext) := by
    unfold parseFtyp32
    rw [P.bind_ok hh]
    dsimp only
    rw [if_neg (by simp), P.bind_ok (E.p_ok hs _ _)]
  have h2 : parseFtyp e F pos = readUtf8 n e F (pos + hlen ext) := by
    unfold parseFtyp
    rw [P.bind_ok hh]
    dsimp only
    rw [if_neg (by simp), P.bind_ok (E.p_ok hs _ _)]
  constructor
  · show P.bind _ _ _ _ _ = P.bind _ _ _ _ _
    unfold P.bind
    rw [h1]
  · show P.bind _ _ _ _ _ = P.bind _ _ _ _ _
    unfold P.bind
    rw [h2]

/-- **C98.** A file type atom that claims `n` bytes of content, whatever follows: if the low 32 bits of `n` are a number from 2^31 on,
reading panics; with 64 bits it is an error, unless the bytes are there. -/
theorem C98_panics (e : Env) (F : Bytes) (pos n : Nat) (ext : Bool)
    (h : bytesAt F pos (hlen ext) = headBytes ext (cc 'f' 't' 'y' 'p') (hlen ext + n))
    (hn : hlen ext + n < if ext then 2^64 else 2^32) (hl : 2^31 ≤ n % 2^32) :
    readTag32 e F pos = .panic ∧ (n < 2^63 → F.length < pos + hlen ext + n → readTag e F pos = .err .io) := by
  have hat : At F pos (headBytes ext FILETYPE (hlen ext + n)) := by
    have hlen' : (headBytes ext FILETYPE (hlen ext + n)).length = hlen ext := by
      cases ext <;> rfl
    have h' : bytesAt F pos (hlen ext) = headBytes ext FILETYPE (hlen ext + n) := h
    refine ⟨?_, by rw [hlen']; exact h'⟩
    have := congrArg List.length h'
    rw [hlen'] at this
    unfold bytesAt at this
    rw [List.length_take, List.length_drop] at this
    have : 0 < hlen ext := by cases ext <;> decide
    omega
  obtain ⟨h1, h2⟩ := readTagP32_ftyp (e := e) hat hn
  constructor
  · unfold readTag32
    rw [h1]
    have : readUtf832 n e F (pos + hlen ext) = .panic := by
      show P.bind (P.bind _ _) _ _ _ _ = _
      unfold P.bind
      simp [E.p, alloc32, usize32, hl]
    show (P.bind _ _ _ _ _).val = _
    unfold P.bind
    rw [this]
    rfl
  · intro h63 hshort
    unfold readTag
    rw [h2]
    have : readUtf8 n e F (pos + hlen ext) = .err .io := by
      show P.bind (P.bind _ _) _ _ _ _ = _
      unfold P.bind
      simp only [E.p, allocU8, Nat.not_le.mpr h63, if_false]
      have : readExact n e F (pos + hlen ext) = .err .io := by
        unfold readExact
        rw [if_neg (by omega)]
      rw [this]
    show (P.bind _ _ _ _ _).val = _
    unfold P.bind
    rw [this]
    rfl

/-- **C98.** A chunk offset table whose entries take 2^31 bytes or more cannot be read. -/
theorem C98_table (w : Nat) (size : Size) (e : Env) (F : Bytes) (pos : Nat) (tp q : Nat) (l : List Nat) (hw : 0 < w)
    (h : parseTable32 w size e F pos = .ok ((tp, l), q)) :
    parseTable w size e F pos = .ok ((tp, l), q) ∧ w * l.length < 2^31 := by
  refine ⟨parseTable_back w size _ _ _ h, ?_⟩
  unfold parseTable32 at h
  obtain ⟨⟨v, fl⟩, p1, h1, h2⟩ := P.bind_inv h
  dsimp only at h2
  split at h2
  · obtain ⟨m, p2, h3, h4⟩ := P.bind_inv h2
    obtain ⟨cl, p3, h5, h6⟩ := P.bind_inv h4
    split at h6
    · cases h6
    · obtain ⟨t, p4, h7, h8⟩ := P.bind_inv h6
      obtain ⟨_, p5, h9, h10⟩ := P.bind_inv h8
      obtain ⟨o, p6, h11, h12⟩ := P.bind_inv h10
      obtain ⟨h13, -⟩ := P.pure_inv h12
      cases h13
      rw [(readTable_inv w hw _ _ _ _ h11).1]
      obtain ⟨h14, -⟩ := E.p_inv h9
      unfold alloc32 at h14
      split at h14
      · cases h14
      · omega
  · cases h2

/-- The full claim for reading. -/
def SameRead : Prop := ∀ (e : Env) (F : Bytes) (pos : Nat) (t : Tag), F.length < 2^31 → readTag32 e F pos = .ok t → readTag e F pos = .ok t

/-- A file whose file type atom claims `n` bytes of content and has `c`. -/
def longFtyp (n : Nat) (c : Bytes) : Bytes := headBytes true (cc 'f' 't' 'y' 'p') (16 + n) ++ c ++ fileEx.ser.drop 12

/-- **C98, refuted.** The upper bits of a claimed length are dropped: with 32 bits a file is read that is broken. -/
theorem C98_refuted : ¬ SameRead := by
  intro h
  have h1 : readTag32 env0 (longFtyp (2^32 + 4) [77, 52, 65, 32]) 0 = .ok tagEx := by decide +kernel
  have h2 : readTag env0 (longFtyp (2^32 + 4) [77, 52, 65, 32]) 0 = .err .io := by decide +kernel
  have h3 := h _ _ _ _ (by decide +kernel) h1
  rw [h2] at h3
  cases h3

/-- The full claim for saving: what a save without success leaves. -/
def SameDamage : Prop := ∀ (e : Env) (F : Bytes) (pos : Nat) (t : Tag), F.length < 2^31 → e.maxPos < 2^63 →
  (writeTag e F pos t).2 = F → (writeTag32 e F pos t).2 = F

/-- An item list at the end of the file that claims `n` bytes and is empty. -/
def farIlst (n : Nat) : Bytes :=
  (⟨false, cc 'f' 't' 'y' 'p', []⟩ : Box).ser ++ (⟨false, cc 'm' 'd' 'a' 't', [1, 2, 3, 4, 5]⟩ : Box).ser ++
  (⟨false, cc 'm' 'o' 'o' 'v', (⟨false, cc 'u' 'd' 't' 'a', (⟨false, cc 'm' 'e' 't' 'a', [0, 0, 0, 0] ++ be32 n ++ (cc 'i' 'l' 's' 't').bytes⟩
    : Box).ser⟩ : Box).ser⟩ : Box).ser

/-- **C98, refuted.** Without overflow checks, the number of bytes to be moved wraps around. With 64 bits the buffer for it is refused by
a panic, before anything is written; with 32 bits the low half of the number may be small. The save goes on, gives the movie atom and the
atoms inside of it wrong lengths and fails only then. -/
theorem C98_refuted_write : ¬ SameDamage ∧
    (writeTag32 { env62 with checked := false } (farIlst (2^32 - 1)) 0 {}).1 = .err .io ∧
    bytesAt (writeTag32 { env62 with checked := false } (farIlst (2^32 - 1)) 0 {}).2 21 8 = [0, 0, 0, 78] ++ (cc 'm' 'o' 'o' 'v').bytes ∧
    bytesAt (farIlst (2^32 - 1)) 21 8 = [0, 0, 0, 36] ++ (cc 'm' 'o' 'o' 'v').bytes ∧
    writeTag { env62 with checked := false } (farIlst (2^32 - 1)) 0 {} = (.panic, farIlst (2^32 - 1)) := by
  have h1 : writeTag { env62 with checked := false } (farIlst (2^32 - 1)) 0 {} = (.panic, farIlst (2^32 - 1)) := by decide +kernel
  have h2 : bytesAt (writeTag32 { env62 with checked := false } (farIlst (2^32 - 1)) 0 {}).2 21 8 = [0, 0, 0, 78] ++ (cc 'm' 'o' 'o' 'v').bytes := by
    decide +kernel
  have h3 : bytesAt (farIlst (2^32 - 1)) 21 8 = [0, 0, 0, 36] ++ (cc 'm' 'o' 'o' 'v').bytes := by decide +kernel
  refine ⟨fun h => ?_, by decide +kernel, h2, h3, h1⟩
  have := h { env62 with checked := false } (farIlst (2^32 - 1)) 0 {} (by decide +kernel) (by decide +kernel) (by rw [h1])
  rw [this, h3] at h2
  exact absurd h2 (by decide +kernel)

/-- With overflow checks the same save panics before anything is written. -/
example : writeTag32 env62 (farIlst (2^32 - 1)) 0 {} = (.panic, farIlst (2^32 - 1)) := by decide +kernel

/-- A file that is read and saved with both. -/
example : readTag32 env0 fileEx.ser 0 = .ok tagEx := C98_read _ _ _ _ (by decide +kernel) fileEx_read
example : (writeTag32 env62 fileEx.ser 0 { atoms := [⟨.fourcc (cc '©' 'n' 'a' 'm'), [.utf8 ['c']]⟩] }).1 = .ok () ∧
    (writeTag32 env62 fileEx.ser 0 { atoms := [⟨.fourcc (cc '©' 'n' 'a' 'm'), [.utf8 ['c']]⟩] }).2 ≠ fileEx.ser := by decide +kernel

/-- A file type atom that claims 2^31 bytes, in a file of 12 bytes. -/
example : readTag32 env0 (headBytes false (cc 'f' 't' 'y' 'p') (8 + 2^31) ++ [1, 2, 3, 4]) 0 = .panic ∧
    readTag env0 (headBytes false (cc 'f' 't' 'y' 'p') (8 + 2^31) ++ [1, 2, 3, 4]) 0 = .err .io := by
  have := C98_panics env0 (headBytes false (cc 'f' 't' 'y' 'p') (8 + 2^31) ++ [1, 2, 3, 4]) 0 (2^31) false (by decide +kernel)
    (by decide +kernel) (by decide +kernel)
  exact ⟨this.1, this.2 (by decide +kernel) (by decide +kernel)⟩

/-- A table with two entries. -/
example : parseTable32 4 ⟨false, 24⟩ env0 [0, 0, 0, 0, 0, 0, 0, 2, 0, 0, 0, 7, 0, 0, 1, 0] 0 = .ok ((8, [7, 256]), 16) := by decide +kernel

end Mp4.Props
