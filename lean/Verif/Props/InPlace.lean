import Verif.Props.Fault
import Verif.Proof.InPlace
/-
C90: what an interrupted write leaves behind, in particular if the file keeps its length.
-/
namespace Mp4.Props
open Mp4 Spec

/-- Of the length of the old file, and every byte is that of the old or of the new file. -/
def Between (F G H : Bytes) : Prop := H.length = F.length ∧ ∀ i : Nat, H[i]? = F[i]? ∨ H[i]? = G[i]?

theorem at_get {F : Bytes} {p : Nat} {b : Bytes} (h : At F p b) {i : Nat} (h1 : p ≤ i) (h2 : i < p + b.length) : b[i - p]? = F[i]? := by
  obtain ⟨A, B, rfl, hA⟩ := h.elim
  subst hA
  rw [List.append_assoc, List.getElem?_append_right h1, List.getElem?_append_left (by omega)]

theorem between_write {F G H T : Bytes} {p : Nat} {b : Bytes} (h : Between F G H) (hG : G.length = F.length) (hT : T = F ∨ T = G)
    (hb : At T p b) : Between F G (writeAt H p b) := by
  have hl := hb.le
  have hTl : T.length = F.length := by rcases hT with rfl | rfl <;> simp [hG]
  refine ⟨by rw [writeAt_length, h.1]; omega, fun i => ?_⟩
  rw [writeAt_get]
  by_cases h1 : i < p
  · rw [if_pos h1, if_pos (by rw [h.1]; omega)]; exact h.2 i
  · rw [if_neg h1]
    by_cases h2 : i < p + b.length
    · rw [if_pos h2, at_get hb (by omega) h2]
      rcases hT with rfl | rfl
      · exact .inl rfl
      · exact .inr rfl
    · rw [if_neg h2]; exact h.2 i

theorem between_op {F G H T : Bytes} {op : Op} (h : Between F G H) (hG : G.length = F.length) (hT : T = F ∨ T = G)
    (ho : op.Agrees T) : Between F G (Op.apply H op) := by
  cases op with
  | write p b => exact between_write h hG hT ho
  | setLen n =>
    have hn : n = F.length := by
      have ho : n = T.length := ho
      rcases hT with rfl | rfl
      · exact ho
      · rw [ho, hG]
    have : Op.apply H (.setLen n) = H := Op.Agrees.apply (op := .setLen n) (by show n = List.length H; rw [hn, h.1])
    rw [this]; exact h

theorem between_ops {F G : Bytes} (hG : G.length = F.length) : ∀ {ops : List Op} {H}, Between F G H →
    (∀ op ∈ ops, op.Agrees F ∨ op.Agrees G) → Between F G (ops.foldl Op.apply H)
  | [], _, h, _ => h
  | op :: ops, H, h, ho => by
    refine between_ops hG (ops := ops) ?_ fun o h => ho o (by simp [h])
    rcases ho op (by simp) with h1 | h1
    · exact between_op h hG (.inl rfl) h1
    · exact between_op h hG (.inr rfl) h1

theorem between_crash {F G H : Bytes} {ops : List Op} (hG : G.length = F.length) (ho : ∀ op ∈ ops, op.Agrees F ∨ op.Agrees G)
    (h : Crash F ops H) : Between F G H := by
  have h0 : Between F G F := ⟨rfl, fun _ => .inl rfl⟩
  cases h with
  | done => exact between_ops hG h0 ho
  | during A op B _ hc hp =>
    have hA := between_ops hG (ops := A) h0 fun o h => ho o (by rw [hc]; simp [h])
    generalize A.foldl Op.apply F = H0 at hA hp
    cases hp with
    | write _ off b j =>
      have hsub : ∀ {T}, At T off b → At T off (b.take j) := fun h => by
        rw [← List.take_append_drop j b] at h; exact h.left
      rcases ho (.write off b) (by rw [hc]; simp) with h1 | h1
      · exact between_write hA hG (.inl rfl) (hsub h1)
      · exact between_write hA hG (.inr rfl) (hsub h1)
    | before => exact hA
    | after _ n =>
      rcases ho (.setLen n) (by rw [hc]; simp) with h1 | h1
      · exact between_op hA hG (.inl rfl) h1
      · exact between_op hA hG (.inr rfl) h1

theorem put_length {e X f atoms} (h : Writable e X f atoms) (hg : f.growth atoms = 0) : (X ++ (f.put atoms).ser).length = (X ++ f.ser).length := by
  have h1 : (serL MoovKid.box (f.put atoms).moov).length = (serL MoovKid.box (f.moov.put id atoms)).length := put_shift_length h.tables
  have h2 : ((serL MoovKid.box (f.moov.put id atoms)).length : Int) - (serL MoovKid.box f.moov).length = 0 := hg
  have h3 : (X ++ (f.put atoms).ser).length = X.length + f.ftypBox.ser.length + (serL id f.pre).length + (f.put atoms).moovBox.ser.length + (serL id f.post).length := by
    show (X ++ (f.ftypBox.ser ++ serL id f.pre ++ (f.put atoms).moovBox.ser ++ serL id f.post)).length = _
    simp only [List.length_append]; omega
  have h4 : (f.put atoms).moovBox.ser.length = f.moovBox.ser.length := by
    rw [Box.ser_length, Box.ser_length]
    show f.moovBox.headLen + (serL MoovKid.box (f.put atoms).moov).length = f.moovBox.headLen + (serL MoovKid.box f.moov).length
    omega
  rw [h3, h4]
  simp only [File.ser, List.length_append]; omega

theorem halfway_ops {F G : Bytes} {s : FSt} (h : Halfway F G s) :
    (∀ op ∈ s.trace, op.Agrees F ∨ op.Agrees G) ∧ s.trace.foldl Op.apply F = s.file := by
  rcases h with h | ⟨A, hA, h⟩
  · exact ⟨fun op ho => .inl (h.ops_agree op ho), h.replay⟩
  · refine ⟨fun op ho => ?_, h.replay⟩
    obtain ⟨B, hB, hB'⟩ := h.ops
    rw [hB] at ho
    rcases List.mem_append.mp ho with ho | ho
    · exact .inl (hA op ho)
    · exact .inr (hB' op ho)

/-- **C90**, if the file keeps its length: whichever calls fail, after however many bytes, and wherever the process is stopped, also
within a call, the file keeps its length and every byte is that of the old or of the new file. (Which differ only within `moov`:
`C90_media`.) -/
theorem C90_bytes (fl : Faults) (e : Env) (X : Bytes) (f : File) (atoms : List AtomData) (h : Writable e X f atoms) (hg : f.growth atoms = 0) :
    Between (X ++ f.ser) (X ++ (f.put atoms).ser) (writeTagF fl e (X ++ f.ser) X.length atoms).2.file ∧
    ∀ H, Crash (X ++ f.ser) (writeTagF fl e (X ++ f.ser) X.length atoms).2.trace H → Between (X ++ f.ser) (X ++ (f.put atoms).ser) H := by
  have h1 := (writeTagF_inplace fl h.fit h.wf h.store h.old h.new h.tables hg).1
  obtain ⟨h2, h3⟩ := halfway_ops h1
  have hl := put_length h hg
  refine ⟨?_, fun H hH => between_crash hl h2 hH⟩
  rw [← h3]
  exact between_ops hl ⟨rfl, fun _ => .inl rfl⟩ h2

/-- **C90**, if the file keeps its length: media data survives at its place, on both sides of `moov`. -/
theorem C90_media (fl : Faults) (e : Env) (X : Bytes) (f : File) (atoms : List AtomData) (h : Writable e X f atoms) (hg : f.growth atoms = 0) :
    ∀ H, Crash (X ++ f.ser) (writeTagF fl e (X ++ f.ser) X.length atoms).2.trace H →
      ∀ o n, f.InMdat X.length o n → bytesAt H o n = bytesAt (X ++ f.ser) o n := by
  intro H hH o n hi
  obtain ⟨hl, hb⟩ := (C90_bytes fl e X f atoms h hg).2 H hH
  have hfr : (f.put atoms).ftypBox = f.ftypBox ∧ (f.put atoms).pre = f.pre := ⟨rfl, rfl⟩
  have hG := front_eq (f.put atoms) X
  rw [hfr.1, hfr.2] at hG
  have hF := front_eq f X
  have hp := front_length f X
  have hlen := put_length h hg
  have hend : f.moovEnd X.length = f.moovPos X.length + f.moovBox.ser.length := rfl
  generalize X ++ f.ftypBox.ser ++ serL id f.pre = P at hF hG hp
  rw [hF, hG] at hlen
  rw [hF, hG] at hb
  rw [hF] at hl ⊢
  have hpost : (f.put atoms).post = f.post := rfl
  rw [hpost] at hb hlen
  simp only [List.length_append] at hlen hl
  have key : ∀ i, (i < f.moovPos X.length ∨ f.moovEnd X.length ≤ i) → H[i]? = (P ++ (f.moovBox.ser ++ serL id f.post))[i]? := by
    intro i hi
    rcases hb i with h | h
    · exact h
    · rw [h]
      rcases hi with hi | hi
      · rw [List.getElem?_append_left (by omega), List.getElem?_append_left (by omega)]
      · rw [List.getElem?_append_right (by omega), List.getElem?_append_right (by omega), List.getElem?_append_right (by omega),
          List.getElem?_append_right (by omega)]
        congr 1
        omega
  apply List.ext_getElem?
  intro i
  unfold bytesAt
  rw [List.getElem?_take, List.getElem?_take]
  split
  · rw [List.getElem?_drop, List.getElem?_drop]
    apply key
    rcases inMdat_bounds hi with ⟨_, hle⟩ | ⟨_, hle⟩
    · exact .inl (by omega)
    · exact .inr (by omega)
  · rfl

/-- The calls so far lead to the old or to the new file. -/
theorem foldl_single {F G : Bytes} {q : Nat} {N : Bytes} {s : FSt} (hN : Op.apply F (.write q N) = G) (h : Single F G q N s) :
    (s.file = F ∨ s.file = G) ∧ ∀ A B, s.trace = A ++ B → A.foldl Op.apply F = F ∨ A.foldl Op.apply F = G := by
  have hF : ∀ ops : List Op, (∀ op ∈ ops, op.Agrees F) → s.trace.foldl Op.apply F = s.file → s.trace = ops →
      (s.file = F ∨ s.file = G) ∧ ∀ A B, s.trace = A ++ B → A.foldl Op.apply F = F ∨ A.foldl Op.apply F = G := by
    intro ops ho hr ht
    refine ⟨.inl ?_, fun A B hAB => .inl (foldl_agrees fun op h => ho op ?_)⟩
    · rw [← hr, ht, foldl_agrees ho]
    · rw [← ht, hAB]; simp [h]
  rcases h with h | ⟨h1, h2, -⟩ | ⟨A0, hA0, h⟩
  · exact hF _ h.ops_agree h.replay rfl
  · exact hF _ h2 h1 rfl
  · obtain ⟨B0, hB0, hB0'⟩ := h.ops
    have hfull : ∀ C : List Op, (∀ op ∈ C, op.Agrees G) → (A0 ++ [Op.write q N] ++ C).foldl Op.apply F = G := by
      intro C hC
      rw [List.foldl_append, List.foldl_append, foldl_agrees hA0]
      show C.foldl Op.apply (Op.apply F (.write q N)) = G
      rw [hN, foldl_agrees hC]
    refine ⟨.inr (by rw [← h.replay, hB0, hfull B0 hB0']), fun A B hAB => ?_⟩
    rw [hB0] at hAB
    rcases List.append_eq_append_iff.mp hAB with ⟨C, hA, hC⟩ | ⟨C, hA, hC⟩
    · refine .inr ?_
      rw [hA, hfull C fun op h => hB0' op (by rw [hC]; simp [h])]
    · rcases List.append_eq_append_iff.mp hA with ⟨D, hD, hE⟩ | ⟨D, hD, hE⟩
      · cases D with
        | nil =>
          refine .inl ?_
          rw [List.append_nil] at hD
          rw [hD, foldl_agrees hA0]
        | cons d D =>
          have hE : d = .write q N ∧ D ++ C = [] := by
            rw [List.cons_append] at hE
            exact ⟨(List.cons.inj hE).1.symm, (List.cons.inj hE).2.symm⟩
          refine .inr ?_
          have hDe : D = [] := (List.append_eq_nil_iff.mp hE.2).1
          rw [hD, hE.1, hDe]
          have := hfull [] (fun _ h => by cases h)
          rwa [List.append_nil] at this
      · refine .inl (foldl_agrees fun op h => hA0 op ?_)
        rw [hD]; simp [h]

/-- **C90**, if the file keeps its length, the item list fits into the buffer and every call is executed as a whole or not at all:
whichever calls fail, and between whichever two calls the process is stopped, the file is the old or the new one. Missing: the
other cases, in which the claim is false (`C90_refuted`, `C90_mixed`, `C90_torn`). -/
theorem C90_atomic_partial (fl : Faults) (e : Env) (X : Bytes) (f : File) (atoms : List AtomData) (h : Writable e X f atoms)
    (hg : f.growth atoms = 0) (hcap : (ilstBox atoms).ser.length + hdlrBox.ser.length < e.cap) (hfl : ∀ k n, fl.call k = some n → n = 0) :
    ((writeTagF fl e (X ++ f.ser) X.length atoms).2.file = X ++ f.ser ∨
      (writeTagF fl e (X ++ f.ser) X.length atoms).2.file = X ++ (f.put atoms).ser) ∧
    ∀ A B, (writeTagF fl e (X ++ f.ser) X.length atoms).2.trace = A ++ B →
      A.foldl Op.apply (X ++ f.ser) = X ++ f.ser ∨ A.foldl Op.apply (X ++ f.ser) = X ++ (f.put atoms).ser := by
  obtain ⟨Q, old, N, M, h1, h2, h3, h4⟩ := (writeTagF_inplace fl h.fit h.wf h.store h.old h.new h.tables hg).2 hcap hfl
  refine foldl_single ?_ h4
  rw [h1, h2]
  exact writeAt_part Q old N M h3 rfl

/-- **C90**, under the same conditions: what is then read is the old or the new tag. -/
theorem C90_tag_partial (fl : Faults) (e : Env) (X : Bytes) (f : File) (t u : Tag) (h : Writable e X f u.atoms)
    (hg : f.growth u.atoms = 0) (hcap : (ilstBox u.atoms).ser.length + hdlrBox.ser.length < e.cap) (hfl : ∀ k n, fl.call k = some n → n = 0)
    (hfit : f.PutFits u.atoms) (hF : Fit e (X ++ (f.put u.atoms).ser)) (hv : ∀ a ∈ u.atoms, Visible a) (hd : u.NoDup) (hc : f.Content t) :
    (∀ H, (H = (writeTagF fl e (X ++ f.ser) X.length u.atoms).2.file ∨
        ∃ A B, (writeTagF fl e (X ++ f.ser) X.length u.atoms).2.trace = A ++ B ∧ H = A.foldl Op.apply (X ++ f.ser)) →
      readTag e H X.length = .ok t ∨ readTag e H X.length = .ok { t with atoms := u.atoms }) := by
  obtain ⟨h1, h2⟩ := C90_atomic_partial fl e X f u.atoms h hg hcap hfl
  have hold : readTag e (X ++ f.ser) X.length = .ok t := by
    have := read_spec (X := X) (Y := []) (e := e) (by simpa using h.fit) h.wf hc
    simpa using this
  have hnew : readTag e (X ++ (f.put u.atoms).ser) X.length = .ok { t with atoms := u.atoms } := by
    obtain ⟨F', k1, k2⟩ := C41_write_read e X f t u h hfit hF hv hd hc
    obtain ⟨s, k3, k4, -⟩ := h.run
    rw [writeTag, k3] at k1
    cases k1
    rw [k4] at k2
    exact k2
  have key : ∀ H, H = X ++ f.ser ∨ H = X ++ (f.put u.atoms).ser → readTag e H X.length = .ok t ∨ readTag e H X.length = .ok { t with atoms := u.atoms } := by
    rintro H (rfl | rfl)
    · exact .inl hold
    · exact .inr hnew
  rintro H (rfl | ⟨A, B, hAB, rfl⟩)
  · exact key _ h1
  · exact key _ (h2 A B hAB)

/-! ### Examples and refutations -/

/-- As many bytes as the items of `fileW` take. -/
def atomsSame : List AtomData :=
  [⟨.fourcc (cc '©' 'n' 'a' 'm'), [.utf8 ('n' :: List.replicate 51 'e')]⟩, ⟨.freeform ['m'] ['n'], [.beSigned [1], .utf8 ['z']]⟩]

theorem atomsSame_store : ∀ a ∈ atomsSame, Storable a ∧ Visible a := by
  intro a ha
  simp only [atomsSame, List.mem_cons, List.not_mem_nil, or_false] at ha
  rcases ha with rfl | rfl
  · refine ⟨⟨?_, by decide +kernel⟩, by decide, by decide⟩
    intro d hd
    rw [List.mem_singleton.mp hd]; trivial
  · refine ⟨⟨?_, by decide +kernel⟩, by decide, by decide⟩
    intro d hd
    simp only [List.mem_cons, List.not_mem_nil, or_false] at hd
    rcases hd with rfl | rfl <;> trivial

theorem fileW_same : Writable env0 [] fileW atomsSame ∧ fileW.growth atomsSame = 0 ∧
    (ilstBox atomsSame).ser.length + hdlrBox.ser.length < env0.cap :=
  ⟨{ wf := fileW_WF, fit := ⟨by decide +kernel, by decide +kernel, by decide +kernel⟩, store := fun a ha => (atomsSame_store a ha).1,
     old := by decide +kernel, new := by decide +kernel, pos := by decide +kernel, tables := fun _ => fileW_tables },
   by decide +kernel, by decide +kernel⟩

/-- The file is written with several calls, one of which replaces the item list. If that call fails, and fails again when it is
issued once more as the buffer is dropped, the old file is left, otherwise the new one. -/
example : (writeTagTo env0 fileW.ser 0 atomsSame).2.trace.length = 9 ∧ (fileW.put atomsSame).ser ≠ fileW.ser ∧
    (∀ k < 8, ((writeTagTo env0 fileW.ser 0 atomsSame).2.trace.take k).foldl Op.apply fileW.ser = fileW.ser) ∧
    ((writeTagTo env0 fileW.ser 0 atomsSame).2.trace.take 8).foldl Op.apply fileW.ser = (fileW.put atomsSame).ser ∧
    (writeTagF ⟨fun k => if 8 ≤ k then some 0 else none, false⟩ env0 fileW.ser 0 atomsSame).1 = .err .io ∧
    (writeTagF ⟨fun k => if 8 ≤ k then some 0 else none, false⟩ env0 fileW.ser 0 atomsSame).2.file = fileW.ser := by decide +kernel

/-- The tag is the old one before the eighth call and the new one after it. -/
example : readTag env0 (((writeTagTo env0 fileW.ser 0 atomsSame).2.trace.take 7).foldl Op.apply fileW.ser) 0 = .ok tagEx ∧
    readTag env0 (((writeTagTo env0 fileW.ser 0 atomsSame).2.trace.take 8).foldl Op.apply fileW.ser) 0
      = .ok { tagEx with atoms := atomsSame } := by decide +kernel

/-- **C90 is false**: when the process is stopped after the file has been shortened, no tag can be read. -/
theorem C90_refuted : Writable env0 [] fileW atomsW ∧ readTag env0 fileW.ser 0 = .ok tagEx ∧ ∃ s A B,
    writeTagTo env0 fileW.ser 0 atomsW = (.ok (), s) ∧ s.trace = A ++ B ∧ readTag env0 (A.foldl Op.apply fileW.ser) 0 = .err .io := by
  have key : (writeTagTo env0 fileW.ser 0 atomsW).1 = .ok () ∧
      readTag env0 (((writeTagTo env0 fileW.ser 0 atomsW).2.trace.take 6).foldl Op.apply fileW.ser) 0 = .err .io := by decide +kernel
  generalize writeTagTo env0 fileW.ser 0 atomsW = r at key
  exact ⟨fileW_writable, fileW_read, r.2, _, _, Prod.ext key.1 rfl, (List.take_append_drop 6 _).symm, key.2⟩

/-- A title, a picture and an artist. -/
def mixed (n : Nat) (a b : Char) : List AtomData :=
  [⟨.fourcc (cc '©' 'n' 'a' 'm'), [.utf8 [a]]⟩, ⟨.fourcc (cc 'c' 'o' 'v' 'r'), [.jpeg (List.replicate n 0)]⟩,
   ⟨.fourcc (cc '©' 'A' 'R' 'T'), [.utf8 [b]]⟩]

def fileMix (n : Nat) : File where
  ftypExt := false
  ftyp := ['M', '4', 'A', ' ']
  pre := []
  moovExt := false
  moov := [.raw mvhdEx, .udta false [.node false ⟨[0, 0, 0], [hdlrBox, ilstBox (mixed n 'a' 'b')]⟩]]
  post := []

theorem mixed_store {n : Nat} (h : ∀ a ∈ mixed n 'x' 'y', (entryOf a).box.Fits) : ∀ a ∈ mixed n 'x' 'y', Storable a := by
  intro a ha
  refine ⟨fun d hd => ?_, h a ha⟩
  simp only [mixed, List.mem_cons, List.not_mem_nil, or_false] at ha
  rcases ha with rfl | rfl | rfl
  all_goals rw [List.mem_singleton.mp hd]; trivial

theorem mixed_noTables {n : Nat} : (fileMix n).moov.Tables := by
  intro ext t h
  simp [fileMix] at h

def tagMix (n : Nat) (a b : Char) : Tag := ⟨['M', '4', 'A', ' '], { duration := some 1666666666 }, mixed n a b⟩

/-- As `env0`, with a buffer of 64 bytes. (With the usual 8192 bytes the same happens with a picture of 8192 bytes, which is more
than the kernel can evaluate.) -/
def envMix : Env := { env0 with cap := 64 }

/-- **C90 is false** also if the file keeps its length: with a picture that does not fit into the buffer, the items are written with
several calls. When the process is stopped in between, the title is the new one and the artist the old one. -/
theorem C90_mixed : Writable envMix [] (fileMix 64) (mixed 64 'x' 'y') ∧ (fileMix 64).growth (mixed 64 'x' 'y') = 0 ∧
    readTag envMix (fileMix 64).ser 0 = .ok (tagMix 64 'a' 'b') ∧ ∃ s A B,
    writeTagTo envMix (fileMix 64).ser 0 (mixed 64 'x' 'y') = (.ok (), s) ∧ s.trace = A ++ B ∧
      readTag envMix (A.foldl Op.apply (fileMix 64).ser) 0 = .ok (tagMix 64 'x' 'b') := by
  have key : (writeTagTo envMix (fileMix 64).ser 0 (mixed 64 'x' 'y')).1 = .ok () ∧
      readTag envMix (((writeTagTo envMix (fileMix 64).ser 0 (mixed 64 'x' 'y')).2.trace.take 5).foldl Op.apply (fileMix 64).ser) 0
        = .ok (tagMix 64 'x' 'b') := by decide +kernel
  refine ⟨{ wf := by decide +kernel, fit := ⟨by decide +kernel, by decide +kernel, by decide +kernel⟩, store := mixed_store (by decide +kernel),
            old := by decide +kernel, new := by decide +kernel, pos := by decide +kernel, tables := fun _ => mixed_noTables },
    by decide +kernel, by decide +kernel, ?_⟩
  generalize writeTagTo envMix (fileMix 64).ser 0 (mixed 64 'x' 'y') = r at key
  exact ⟨r.2, _, _, Prod.ext key.1 rfl, (List.take_append_drop 5 _).symm, key.2⟩

/-- **C90 is false** also if the file keeps its length and the items fit into the buffer: when the process is stopped within the
call that writes them, the title may be the new one and the artist the old one. -/
theorem C90_torn : Writable env0 [] (fileMix 3) (mixed 3 'x' 'y') ∧ (fileMix 3).growth (mixed 3 'x' 'y') = 0 ∧
    (ilstBox (mixed 3 'x' 'y')).ser.length + hdlrBox.ser.length < env0.cap ∧
    readTag env0 (fileMix 3).ser 0 = .ok (tagMix 3 'a' 'b') ∧ ∃ s H,
    writeTagTo env0 (fileMix 3).ser 0 (mixed 3 'x' 'y') = (.ok (), s) ∧ Crash (fileMix 3).ser s.trace H ∧
      readTag env0 H 0 = .ok (tagMix 3 'x' 'b') := by
  have key : (writeTagTo env0 (fileMix 3).ser 0 (mixed 3 'x' 'y')).1 = .ok () ∧
      (writeTagTo env0 (fileMix 3).ser 0 (mixed 3 'x' 'y')).2.trace
        = (writeTagTo env0 (fileMix 3).ser 0 (mixed 3 'x' 'y')).2.trace.take 4 ++ .write 103 (ilstBox (mixed 3 'x' 'y')).ser ::
          (writeTagTo env0 (fileMix 3).ser 0 (mixed 3 'x' 'y')).2.trace.drop 5 ∧
      readTag env0 (Op.apply (((writeTagTo env0 (fileMix 3).ser 0 (mixed 3 'x' 'y')).2.trace.take 4).foldl Op.apply (fileMix 3).ser)
        (.write 103 ((ilstBox (mixed 3 'x' 'y')).ser.take 40))) 0 = .ok (tagMix 3 'x' 'b') := by decide +kernel
  refine ⟨{ wf := by decide +kernel, fit := ⟨by decide +kernel, by decide +kernel, by decide +kernel⟩, store := mixed_store (by decide +kernel),
            old := by decide +kernel, new := by decide +kernel, pos := by decide +kernel, tables := fun _ => mixed_noTables },
    by decide +kernel, by decide +kernel, by decide +kernel, ?_⟩
  generalize writeTagTo env0 (fileMix 3).ser 0 (mixed 3 'x' 'y') = r at key
  exact ⟨r.2, _, Prod.ext key.1 rfl, .during _ _ _ _ key.2.1 (.write _ _ _ 40), key.2.2⟩

end Mp4.Props
