import Verif.Proof.Amplify
import Verif.Props.Sane
import Verif.Props.Dump
import Verif.Props.Path
/-
C70, C71: where the content of a tag comes from and how large it can be, for arbitrary byte strings; copying a tag from
arbitrary input to another file.
-/
namespace Mp4.Props
open Mp4 Spec

/-! ### C70 -/

/-- **C70.** Whatever bytes are read, in every build: if reading succeeds, then the file type, every identifier, every
value, the duration, the bitrates, the sample rate and the channels are stored in atoms and descriptors of the input. -/
theorem C70_provenance (e : Env) (F : Bytes) (pos : Nat) (t : Tag) (h : readTag e F pos = .ok t) :
    TagIn F (!e.checked) t := readTag_in h

/-- **C70.** No items without the name of the value atom in the input. -/
theorem C70_no_values (e : Env) (F : Bytes) (pos : Nat) (t : Tag) (h : readTag e F pos = .ok t)
    (hd : ∀ A B, F ≠ A ++ [0x64, 0x61, 0x74, 0x61] ++ B) : t.atoms = [] := by
  have ht := readTag_in h
  cases ha : t.atoms with
  | nil => rfl
  | cons a as =>
    have hmem : a ∈ t.atoms := by rw [ha]; simp
    obtain ⟨hne, -⟩ := ht.visible a hmem
    cases hds : a.data with
    | nil => exact absurd hds hne
    | cons d ds =>
      obtain ⟨ext, code, b, tail, -, ⟨-, A, hF⟩, -⟩ := ht.values a hmem d (by rw [hds]; simp)
      have hcc : (cc 'd' 'a' 't' 'a').bytes = [0x64, 0x61, 0x74, 0x61] := by decide
      unfold headBytes at hF
      rw [hcc] at hF
      cases ext with
      | true => exact absurd hF (by simpa using hd (A ++ be32 1) (be64 _ ++ (be32 code ++ tail)))
      | false =>
        exact absurd hF (by simpa using hd (A ++ be32 (hlen false + 8 + b.length)) (be32 code ++ tail))

/-- **C70.** In a build with overflow checks the duration is that of a movie header, not reduced modulo 2^64. -/
theorem C70_duration (e : Env) (F : Bytes) (pos : Nat) (t : Tag) (h : readTag e F pos = .ok t) (hc : e.checked = true)
    (d : Nat) (hd : t.info.duration = some d) : d < 2^64 ∧ DurationIn F false d := by
  have := (readTag_in h).duration d hd
  rw [hc] at this
  refine ⟨?_, this⟩
  obtain ⟨ext, n, flags, times, scale, u, rest, -, hs, -, hx⟩ := this
  rcases hx with ⟨-, hu, rfl, -⟩ | ⟨-, -, hx, -⟩
  · have := Nat.div_le_self (u * 1000000000) scale
    omega
  · simp only [Bool.not_true, Bool.false_eq_true, if_false] at hx
    obtain ⟨hx, rfl⟩ := hx
    have := Nat.div_le_self (u * 1000000000) scale
    omega

example : TagIn fileEx.ser false tagEx ∧ tagEx.atoms.length = 2 ∧ tagEx.info.duration = some 1666666666 :=
  ⟨C70_provenance env0 _ 0 _ fileEx_read, rfl, rfl⟩

/-- Arbitrary bytes that are no well-formed file: a value without locale at the very end. -/
def provEx : Bytes :=
  headBytes false (cc 'f' 't' 'y' 'p') 8 ++ headBytes false (cc 'm' 'o' 'o' 'v') 1000 ++
    headBytes false (cc 'u' 'd' 't' 'a') 1000 ++ headBytes false (cc 'm' 'e' 't' 'a') 1000 ++ [0, 9, 9, 9] ++
    headBytes false (cc 'i' 'l' 's' 't') 9 ++ headBytes false (cc '©' 'n' 'a' 'm') 9 ++
    headBytes false (cc 'd' 'a' 't' 'a') 16 ++ be32 1

/-- The loops around end at the end of the input, with an error. -/
example : readTag env0 provEx 0 = .err .io := by decide +kernel

/-- With fitting sizes around, the value is found although its locale is missing. -/
def provEx' : Bytes :=
  headBytes false (cc 'f' 't' 'y' 'p') 8 ++ headBytes false (cc 'm' 'o' 'o' 'v') 29 ++
    headBytes false (cc 'u' 'd' 't' 'a') 21 ++ headBytes false (cc 'm' 'e' 't' 'a') 13 ++ [0, 9, 9, 9] ++
    headBytes false (cc 'i' 'l' 's' 't') 9 ++ headBytes false (cc '©' 'n' 'a' 'm') 9 ++
    headBytes false (cc 'd' 'a' 't' 'a') 16 ++ be32 1

theorem provEx'_read : readTag env0 provEx' 0 = .ok { atoms := [⟨.fourcc (cc '©' 'n' 'a' 'm'), [.utf8 []]⟩] } := by decide +kernel

example : ValueIn provEx' (.utf8 []) :=
  (C70_provenance env0 _ 0 _ provEx'_read).values ⟨.fourcc (cc '©' 'n' 'a' 'm'), [.utf8 []]⟩ (by simp) _ (by simp)

/-! ### C71 -/

/-- **C71 (partial).** A tag read from input with sane 64 bit sizes has no items, or its items take at least 40 bytes less
than the input behind the start position. Missing: input with other sizes, for which it is false. -/
theorem C71_size_partial (e : Env) (F : Bytes) (pos : Nat) (t : Tag) (hl : F.length ≤ e.maxPos) (hm : e.maxPos < 2^63)
    (hf : F.length < e.fuel) (hs : SaneSizes F) (h : readTag e F pos = .ok t) :
    t.atoms = [] ∨ pos + 40 + (serL Entry.box (t.atoms.map entryOf)).length ≤ F.length := by
  rcases readTag_room ⟨⟨hl, by omega, hf⟩, hm, hs⟩ h with h | h
  · exact .inl h
  · right; unfold entriesSize at h; omega

/-- The bound is met: the items take 24 bytes, the input has 64. -/
example : provEx'.length = 64 ∧ SaneSizes provEx' ∧
    (serL Entry.box ([⟨.fourcc (cc '©' 'n' 'a' 'm'), [.utf8 []]⟩].map entryOf)).length = 24 :=
  ⟨by decide +kernel, saneB_sound (by decide +kernel), by decide +kernel⟩

/-- **C71.** Without overflow checks, a file of `92 + N + V` bytes makes `9 + N` copies of a value of `V` bytes. -/
theorem C71_amplifies (e : Env) (N V : Nat) (hc : e.checked = false) (hNV : N + V < 2^31) (hm : 92 + N + V ≤ e.maxPos)
    (hf : 2 * N + 20 ≤ e.fuel) :
    (ampFile N V).length = 92 + N + V ∧
    ∃ t, readTag e (ampFile N V) 0 = .ok t ∧
      (serL Entry.box (t.atoms.map entryOf)).length = 8 + (9 + N) * (16 + V) := by
  refine ⟨ampFile_length N V, _, amp_read hc hNV hm hf, ?_⟩
  show entriesSize [_] = _
  rw [entriesSize_cons, entrySize_fourcc]
  have : ∀ n, dataSize (List.replicate n (.reserved (List.replicate V 0))) = n * (16 + V) := by
    intro n
    induction n with
    | zero => simp [dataSize, serL]
    | succ n ih =>
      rw [List.replicate_succ', dataSize_append, ih, dataSize_single, Nat.succ_mul]
      simp [payload]
  rw [this]
  show _ + 0 = _
  rw [Nat.add_comm N 9, Nat.add_zero]

/-- **C71.** It is false of arbitrary input: there is a file of 692 bytes whose items take 97652. -/
theorem C71_false : ¬ ∀ (e : Env) (F : Bytes) (t : Tag), F.length ≤ e.maxPos → e.maxPos < 2^63 → F.length < e.fuel →
    readTag e F 0 = .ok t → t.atoms = [] ∨ (serL Entry.box (t.atoms.map entryOf)).length ≤ 100 * F.length := by
  intro h
  obtain ⟨h1, t, h2, h3⟩ := C71_amplifies { env0 with checked := false, fuel := 10000 } 300 300 rfl (by decide) (by decide) (by decide)
  rcases h { env0 with checked := false, fuel := 10000 } (ampFile 300 300) t (by rw [h1]; decide) (by decide) (by rw [h1]; decide) h2 with h4 | h4
  · rw [h4] at h3; simp [serL] at h3
  · rw [h1, h3] at h4; omega

/-- The same file with overflow checks: a panic instead. -/
example : readTag { env0 with checked := false } (ampFile 1 2) 0 =
    .ok { atoms := [⟨.fourcc (cc '©' 'n' 'a' 'm'), List.replicate 10 (.reserved [0, 0])⟩] } ∧
    readTag env0 (ampFile 1 2) 0 = .panic := by decide +kernel

/-! ### Copying -/

theorem entrySize_mem {l : List AtomData} {a : AtomData} (h : a ∈ l) : entrySize a ≤ entriesSize l := by
  induction l with
  | nil => simp at h
  | cons x l ih =>
    rw [entriesSize_cons]
    rcases List.mem_cons.mp h with rfl | h
    · omega
    · have := ih h; omega

theorem entryOf_ext (a : AtomData) : (entryOf a).box.ext = false := by unfold entryOf; split <;> rfl

/-- Everything read from sane input shorter than 4 GiB can be stored, but for UTF-16 texts. -/
theorem read_storable {e : Env} {F : Bytes} {pos : Nat} {t : Tag} (hs : SaneB e F) (h4 : F.length < 2^32)
    (h : readTag e F pos = .ok t) (hu : ∀ a ∈ t.atoms, ∀ d ∈ a.data, noUtf16Text d) :
    ∀ a ∈ t.atoms, Storable a ∧ Visible a := by
  intro a ha
  refine ⟨⟨hu a ha, fun hx => ?_⟩, (readTag_in h).visible a ha⟩
  rcases readTag_room hs h with h0 | h0
  · rw [h0] at ha; simp at ha
  · have h1 := entrySize_mem ha
    unfold entrySize at h1
    rw [Box.ser_length, Box.headLen, entryOf_ext] at h1
    simp only [Bool.false_eq_true, if_false] at h1
    omega

theorem mkBox_length {fc : Fourcc} {body : Bytes} (h : body.length + 8 < 2^32) : (mkBox fc body).ser.length = 8 + body.length := by
  have hx : (mkBox fc body).ext = false := decide_eq_false (by omega)
  have hb : (mkBox fc body).body = body := rfl
  rw [Box.ser_length, Box.headLen, hx, hb]; rfl

theorem hdlrBox_length : hdlrBox.ser.length = 33 := by decide

theorem ilstBox_length {atoms : List AtomData} (h : entriesSize atoms + 100 ≤ 2^32) :
    (ilstBox atoms).ser.length = 8 + entriesSize atoms := mkBox_length (by unfold entriesSize at h; omega)

theorem newMeta_length {atoms : List AtomData} (h : entriesSize atoms + 100 ≤ 2^32) :
    (newMeta atoms).ser.length = 45 + entriesSize atoms := by
  rw [newMeta_ser_length, hdlrBox_length, ilstBox_length h]; omega

theorem newUdta_length {atoms : List AtomData} (h : entriesSize atoms + 100 ≤ 2^32) :
    (newUdta atoms).ser.length = 53 + entriesSize atoms := by
  rw [newUdta_ser, mkBox_length] <;> rw [newMeta_length h] <;> omega

theorem newMoov_length {atoms : List AtomData} (h : entriesSize atoms + 100 ≤ 2^32) :
    (newMoov atoms).ser.length = 61 + entriesSize atoms := by
  rw [newMoov_ser, mkBox_length] <;> rw [newUdta_length h] <;> omega

theorem dumpFile_length {atoms : List AtomData} (h : entriesSize atoms + 100 ≤ 2^32) :
    (dumpFile atoms).ser.length = 93 + entriesSize atoms := by
  have h16 : (utf8 dumpFtyp).length = 16 := by rw [← utf8Enc_spec]; decide
  rw [dumpFile_ser, List.length_append, Box.ser_length, mkBox_length] <;> rw [newMoov_length h]
  · simp only [Box.headLen, Bool.false_eq_true, if_false, h16]; omega
  · omega

theorem inserted_length {m : Spec.Moov} {atoms : List AtomData} (h : entriesSize atoms + 100 ≤ 2^32) :
    (m.inserted atoms).length ≤ 61 + entriesSize atoms := by
  have hu : (udtaKid (newUdta atoms)).box.ser.length = 61 + entriesSize atoms := by
    rw [udtaKid_box, mkBox_length] <;> rw [newUdta_length h] <;> omega
  have hm : (Kid.box (cc 'm' 'e' 't' 'a') Meta.ser (metaKid (newMeta atoms))).ser.length = 53 + entriesSize atoms := by
    rw [metaKid_box, mkBox_length] <;> rw [newMeta_length h] <;> omega
  have hi := ilstBox_length h
  have hh := hdlrBox_length
  unfold Spec.Moov.inserted
  split
  · unfold Udta.inserted
    split
    · unfold Meta.inserted
      split <;> simp only [List.length_append, List.length_nil] <;> omega
    · omega
  · omega

theorem serL_mem {κ} {box : κ → Box} {ks : List κ} {k : κ} (h : k ∈ ks) : (box k).ser.length ≤ (serL box ks).length := by
  induction ks with
  | nil => simp at h
  | cons x ks ih =>
    rw [serL_cons, List.length_append]
    rcases List.mem_cons.mp h with rfl | h
    · omega
    · have := ih h; omega

theorem fits_of_length {b : Box} (h : b.ser.length < 2^32) : b.Fits := by
  intro hx
  rw [Box.ser_length, Box.headLen, hx] at h
  simp only [Bool.false_eq_true, if_false] at h
  omega

theorem putFits_of_length {f : File} {atoms : List AtomData} (h : (f.put atoms).ser.length < 2^32) : f.PutFits atoms := by
  have h1 : (f.put atoms).moovBox.ser.length < 2^32 := by
    simp only [File.ser, List.length_append] at h; omega
  refine ⟨fits_of_length h1, fun k hk => ?_⟩
  have h2 : k.box.ser.length < 2^32 := by
    have := serL_mem (box := MoovKid.box) hk
    rw [Box.ser_length] at h1
    have h3 : (f.put atoms).moovBox.body.length = (serL MoovKid.box (f.put atoms).moov).length := rfl
    omega
  refine ⟨fits_of_length h2, ?_⟩
  rintro ext u rfl x hx
  have h3 := serL_mem (box := Kid.box (cc 'm' 'e' 't' 'a') Meta.ser) hx
  have h4 : (MoovKid.udta ext u).box.body.length = (serL (Kid.box (cc 'm' 'e' 't' 'a') Meta.ser) u).length := rfl
  rw [Box.ser_length] at h2
  exact fits_of_length (by omega)

/-- **C71 (partial).** A tag read from arbitrary input with sane sizes can be dumped: the dump is at most 53 bytes longer
than the input (93 bytes if there are no items), and reading it returns exactly the items read. Missing: UTF-16 texts, which
are not stored correctly (C26), and sizes that are not sane. -/
theorem C71_dump_partial (e e' : Env) (F : Bytes) (pos : Nat) (t : Tag) (hl : F.length ≤ e.maxPos) (hm : e.maxPos < 2^63)
    (hf : F.length < e.fuel) (hs : SaneSizes F) (h : readTag e F pos = .ok t)
    (hu : ∀ a ∈ t.atoms, ∀ d ∈ a.data, noUtf16Text d) (h4 : F.length < 2^32 - 60)
    (hF1 : F.length + 93 ≤ e'.maxPos) (hF2 : F.length + 93 < e'.fuel) :
    ∃ D, dumpTag e' t = (D, .ok ()) ∧ D.length ≤ max 93 (F.length + 53) ∧
      readTag e' D 0 = .ok { ftyp := dumpFtyp, info := {}, atoms := t.atoms } := by
  have hS : SaneB e F := ⟨⟨hl, by omega, hf⟩, hm, hs⟩
  have hst := read_storable hS (by omega) h hu
  have hsz : t.atoms = [] ∨ entriesSize t.atoms + (pos + 40) ≤ F.length := readTag_room hS h
  have h0 : t.atoms = [] → entriesSize t.atoms = 0 := fun h => by rw [h]; rfl
  have hdl := dumpFile_length (atoms := t.atoms) (by rcases hsz with h | h <;> (try have := h0 h) <;> omega)
  have hd := C28_dump e' t fun a ha => (hst a ha).1
  have hr := C29_roundtrip e' t hst (readTag_noDup h)
  rw [hd] at hr
  refine ⟨_, hd, ?_, hr ⟨?_, ?_, ?_⟩⟩ <;> rw [hdl] <;> rcases hsz with h | h <;> (try have := h0 h) <;> omega

/-- **C71 (partial).** A tag read from arbitrary input with sane sizes can be saved to any well-formed file `g` (with
well-formed chunk offset tables, if they have to be adjusted), as long as the lengths add up to less than 4 GiB. Reading
the result returns exactly the items read from the input, and file type and audio information of `g`. Missing: UTF-16
texts and sizes that are not sane. -/
theorem C71_copy_partial (e e' : Env) (F : Bytes) (pos : Nat) (t : Tag) (hl : F.length ≤ e.maxPos) (hm : e.maxPos < 2^63)
    (hf : F.length < e.fuel) (hs : SaneSizes F) (h : readTag e F pos = .ok t)
    (hu : ∀ a ∈ t.atoms, ∀ d ∈ a.data, noUtf16Text d)
    (X : Bytes) (g : File) (u : Tag) (hg : g.WF) (hgu : g.Content u) (ht : g.MediaBehind → g.moov.Tables)
    (h4 : X.length + g.ser.length + F.length + 100 < 2^32) (hF1 : X.length + g.ser.length + F.length + 61 ≤ e'.maxPos)
    (hF2 : X.length + g.ser.length + F.length + 61 < e'.fuel) :
    ∃ G, writeTag e' (X ++ g.ser) X.length t = (.ok (), G) ∧ G.length ≤ X.length + g.ser.length + F.length + 61 ∧
      readTag e' G X.length = .ok { ftyp := u.ftyp, info := u.info, atoms := t.atoms } := by
  have hS : SaneB e F := ⟨⟨hl, by omega, hf⟩, hm, hs⟩
  have hst := read_storable hS (by omega) h hu
  have hsz : entriesSize t.atoms ≤ F.length := by
    rcases readTag_room hS h with h | h
    · rw [h]; exact Nat.zero_le _
    · omega
  have hput := put_ser_length (f := g) (atoms := t.atoms) ht
  have hins := inserted_length (m := g.moov) (atoms := t.atoms) (by omega)
  have hW : Writable e' X g t.atoms := by
    refine ⟨hg, ⟨?_, ?_, ?_⟩, fun a ha => (hst a ha).1, ?_, ?_, ?_, ht⟩ <;> rw [List.length_append] <;> omega
  obtain ⟨s, h1, h2, -⟩ := hW.run
  obtain ⟨G, h3, h5⟩ := C41_write_read e' X g u t hW (putFits_of_length (by omega))
    (by refine ⟨?_, ?_, ?_⟩ <;> rw [List.length_append] <;> omega) (fun a ha => (hst a ha).2) (readTag_noDup h) hgu
  refine ⟨G, h3, ?_, h5⟩
  have : G = X ++ (g.put t.atoms).ser := by
    rw [writeTag, h1] at h3
    injection h3 with _ h3
    rw [← h3, ← h2]
  rw [this, List.length_append]
  omega

/-- The value without locale, in a file of its own. -/
example : ∃ D, dumpTag env0 { atoms := [⟨.fourcc (cc '©' 'n' 'a' 'm'), [.utf8 []]⟩] } = (D, .ok ()) ∧ D.length ≤ 117 ∧
    readTag env0 D 0 = .ok { ftyp := dumpFtyp, atoms := [⟨.fourcc (cc '©' 'n' 'a' 'm'), [.utf8 []]⟩] } := by
  obtain ⟨D, h1, h2, h3⟩ := C71_dump_partial env0 env0 provEx' 0 _ (by decide +kernel) (by decide) (by decide +kernel)
    (saneB_sound (by decide +kernel)) provEx'_read (by simp [noUtf16Text]) (by decide +kernel) (by decide +kernel) (by decide +kernel)
  exact ⟨D, h1, Nat.le_trans h2 (by decide +kernel), h3⟩

/-- The value without locale, copied to another file. -/
example : ∃ G, writeTag env0 fileW.ser 0 { atoms := [⟨.fourcc (cc '©' 'n' 'a' 'm'), [.utf8 []]⟩] } = (.ok (), G) ∧
    readTag env0 G 0 = .ok { tagEx with atoms := [⟨.fourcc (cc '©' 'n' 'a' 'm'), [.utf8 []]⟩] } := by
  obtain ⟨G, h1, -, h2⟩ := C71_copy_partial env0 env0 provEx' 0 _ (by decide +kernel) (by decide) (by decide +kernel)
    (saneB_sound (by decide +kernel)) provEx'_read (by simp [noUtf16Text]) [] fileW tagEx fileW_WF fileW_content
    (fun _ => fileW_tables) (by decide +kernel) (by decide +kernel) (by decide +kernel)
  exact ⟨G, h1, h2⟩

end Mp4.Props
