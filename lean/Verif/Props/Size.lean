import Verif.Spec.Size
import Verif.Props.Commute
import Verif.Props.Provenance
/-
C105: what a value costs.
-/
namespace Mp4.Props
open Mp4 Spec

theorem valuesSize_eq (ds : List Data) : valuesSize ds = dataSize ds := by
  induction ds with
  | nil => rfl
  | cons d ds ih =>
    have : dataSize (d :: ds) = dataSize [d] + dataSize ds := dataSize_append [d] ds
    rw [this, dataSize_single, ← ih]; rfl

theorem atomSize_eq (a : AtomData) : identSize a.ident + valuesSize a.data = entrySize a := by
  rw [valuesSize_eq]
  obtain ⟨i, ds⟩ := a
  cases i with
  | fourcc f => rw [entrySize_fourcc]; rfl
  | freeform m n => rw [entrySize_freeform]; rfl

theorem storedSize_eq (t : Tag) : storedSize t = entriesSize t.atoms := by
  unfold storedSize
  induction t.atoms with
  | nil => rfl
  | cons a l ih => rw [List.map_cons, List.sum_cons, ih, entriesSize_cons, atomSize_eq]

theorem valuesSize_append (a b : List Data) : valuesSize (a ++ b) = valuesSize a + valuesSize b := by
  simp only [valuesSize, List.map_append, List.sum_append]

/-- **C105**: a tag takes 93 bytes and those of its entries when it is dumped. -/
theorem C105_dump (e : Env) (t : Tag) (hs : ∀ a ∈ t.atoms, Storable a) (h : storedSize t + 100 ≤ 2^32) :
    (dumpTag e t).2 = .ok () ∧ (dumpTag e t).1.length = 93 + storedSize t := by
  rw [C28_dump e t hs]
  rw [storedSize_eq] at h ⊢
  exact ⟨rfl, dumpFile_length h⟩

theorem inserted_exact (m : Spec.Moov) : ∃ c, ∀ atoms : List AtomData, entriesSize atoms + 100 ≤ 2^32 →
    (m.inserted atoms).length = c + entriesSize atoms := by
  unfold Spec.Moov.inserted
  cases m.lastUdta with
  | none =>
    refine ⟨61, fun atoms h => ?_⟩
    dsimp only
    rw [udtaKid_box, mkBox_length] <;> rw [newUdta_length h] <;> omega
  | some u =>
    dsimp only
    unfold Udta.inserted
    cases u.lastMeta with
    | none =>
      refine ⟨53, fun atoms h => ?_⟩
      dsimp only
      rw [metaKid_box, mkBox_length] <;> rw [newMeta_length h] <;> omega
    | some mt =>
      dsimp only
      unfold Meta.inserted
      by_cases hh : ∃ b ∈ mt.kids, b.fc = cc 'h' 'd' 'l' 'r'
      · refine ⟨8, fun atoms h => ?_⟩
        rw [if_pos hh, List.nil_append, ilstBox_length h]
      · refine ⟨41, fun atoms h => ?_⟩
        rw [if_neg hh, List.length_append, ilstBox_length h, hdlrBox_length]; omega

/-- **C105**: saved to the same file, two tags give files whose lengths differ as their entries do. -/
theorem C105_saved (e : Env) (X : Bytes) (f : File) (t u : Tag) (ht : Writable e X f t.atoms) (hu : Writable e X f u.atoms)
    (h : storedSize t + 100 ≤ 2^32) (h' : storedSize u + 100 ≤ 2^32) :
    ∃ F F', writeTag e (X ++ f.ser) X.length t = (.ok (), F) ∧ writeTag e (X ++ f.ser) X.length u = (.ok (), F') ∧
      F.length + storedSize u = F'.length + storedSize t := by
  obtain ⟨s, h1, h2⟩ := C53_length e X f _ ht
  obtain ⟨s', h1', h2'⟩ := C53_length e X f _ hu
  refine ⟨s.file, s'.file, by rw [writeTag, h1], by rw [writeTag, h1'], ?_⟩
  obtain ⟨c, hc⟩ := inserted_exact f.moov
  rw [storedSize_eq] at h h' ⊢
  rw [storedSize_eq]
  rw [hc _ h] at h2
  rw [hc _ h'] at h2'
  omega

theorem size_split (L R : List AtomData) (a : AtomData) (t : Tag) (h : t.atoms = L ++ a :: R) :
    storedSize t = storedSize { t with atoms := L ++ R } + (identSize a.ident + valuesSize a.data) := by
  simp only [storedSize, h, List.map_append, List.map_cons, List.sum_append, List.sum_cons]
  omega

/-- What a call that changes the values under one identifier, or creates the entry, does to the size. -/
theorem size_upsert (t : Tag) (i : Ident) (f : List Data → List Data) (new : List Data) (t' : Tag)
    (ht : t' = match modFirst i (fun a => { a with data := f a.data }) t.atoms with
      | some l => { t with atoms := l }
      | none => { t with atoms := t.atoms ++ [⟨i.toData, new⟩] }) :
    (present t i → storedSize t' + valuesSize (t.dataOf i) = storedSize t + valuesSize (f (t.dataOf i))) ∧
    (¬ present t i → t.dataOf i = [] ∧ storedSize t' = storedSize t + identSize i.toData + valuesSize new) := by
  rcases split_first i.toData t.atoms with hno | ⟨L, a, R, hL, hi, ha⟩
  · have hn : modFirst i (fun a => { a with data := f a.data }) t.atoms = none := modFirst_none _ _ _ hno
    rw [hn] at ht
    refine ⟨fun ⟨a, h1, h2⟩ => absurd (h2 ▸ List.mem_map_of_mem h1) hno, fun _ => ⟨by rw [Tag.dataOf_eq, valL_not_mem _ _ hno], ?_⟩⟩
    rw [ht]
    simp only [storedSize, List.map_append, List.map_cons, List.map_nil, List.sum_append, List.sum_cons, List.sum_nil]
    omega
  · have hs : modFirst i (fun a => { a with data := f a.data }) t.atoms = some (L ++ { a with data := f a.data } :: R) := by
      rw [hL]; exact modFirst_split _ _ _ _ _ hi ha
    have hd : t.dataOf i = a.data := by
      rw [Tag.dataOf_eq, hL, valL_append, if_neg hi, valL_cons, if_pos ha]
    rw [hs] at ht
    refine ⟨fun _ => ?_, fun hn => absurd ⟨a, by rw [hL]; exact List.mem_append_right _ (List.mem_cons_self ..), ha⟩ hn⟩
    rw [hd, ht, size_split L R a t hL, size_split L R { a with data := f a.data } _ rfl]
    dsimp only
    omega

/-- **C105**: adding a value costs its bytes and 16 more, and the identifier if it is new. -/
theorem C105_add (t : Tag) (i : Ident) (d : Data) :
    storedSize (t.addData i d) = storedSize t + valueSize d + (if present t i then 0 else identSize i.toData) := by
  have h := size_upsert t i (· ++ [d]) [d] (t.addData i d) rfl
  have hv : valuesSize [d] = valueSize d := by simp [valuesSize]
  by_cases hp : present t i
  · have := h.1 hp
    rw [valuesSize_append, hv] at this
    rw [if_pos hp]; omega
  · have := (h.2 hp).2
    rw [hv] at this
    rw [if_neg hp]; omega

/-- **C105**: setting a value also frees the bytes of the values that were there. -/
theorem C105_set (t : Tag) (i : Ident) (d : Data) :
    storedSize (t.setData i d) + valuesSize (t.dataOf i) =
      storedSize t + valueSize d + (if present t i then 0 else identSize i.toData) := by
  have h := size_upsert t i (fun _ => [d]) [d] (t.setData i d) rfl
  have hv : valuesSize [d] = valueSize d := by simp [valuesSize]
  by_cases hp : present t i
  · have := h.1 hp
    rw [hv] at this
    rw [if_pos hp]; omega
  · obtain ⟨h1, h2⟩ := h.2 hp
    rw [hv] at h2
    rw [if_neg hp, h1]
    have : valuesSize [] = 0 := rfl
    omega

/-- **C105**: removing an entry frees the bytes of its values and of its identifier. -/
theorem C105_remove (t : Tag) (i : Ident) (hn : t.NoDup) (hp : present t i) :
    storedSize (t.removeDataOf i) + identSize i.toData + valuesSize (t.dataOf i) = storedSize t := by
  rcases split_first i.toData t.atoms with hno | ⟨L, a, R, hL, hi, ha⟩
  · obtain ⟨a, h1, h2⟩ := hp
    exact absurd (h2 ▸ List.mem_map_of_mem h1) hno
  · have hd : t.dataOf i = a.data := by
      rw [Tag.dataOf_eq, hL, valL_append, if_neg hi, valL_cons, if_pos ha]
    have hR : i.toData ∉ R.map AtomData.ident := by
      rw [Tag.NoDup, hL, List.map_append, List.map_cons, List.nodup_append] at hn
      rw [← ha]
      exact (List.nodup_cons.mp hn.2.1).1
    have hf : ∀ l : List AtomData, i.toData ∉ l.map AtomData.ident → l.filter (fun a => !i.matches a.ident) = l := by
      intro l hl
      rw [List.filter_eq_self]
      intro b hb
      rw [Ident.matches_eq, Bool.not_eq_true', decide_eq_false_iff_not]
      exact fun h => hl (h ▸ List.mem_map_of_mem hb)
    have hr : t.removeDataOf i = { t with atoms := L ++ R } := by
      have hm : (!i.matches a.ident) = false := by rw [Ident.matches_eq, ha]; simp
      rw [Tag.removeDataOf, hL, List.filter_append, List.filter_cons, hm, hf L hi, hf R hR]
      simp
    rw [hr, hd, size_split L R a t hL, ha]
    omega

/-- **C105**: saving with one more value makes the file longer by exactly the cost of the value. -/
theorem C105_add_saved (e : Env) (X : Bytes) (f : File) (t : Tag) (i : Ident) (d : Data) (ht : Writable e X f t.atoms)
    (hu : Writable e X f (t.addData i d).atoms) (h : storedSize (t.addData i d) + 100 ≤ 2^32) :
    ∃ F F', writeTag e (X ++ f.ser) X.length t = (.ok (), F) ∧ writeTag e (X ++ f.ser) X.length (t.addData i d) = (.ok (), F') ∧
      F'.length = F.length + (16 + (payload d).length) + (if present t i then 0 else identSize i.toData) := by
  have hc := C105_add t i d
  obtain ⟨F, F', h1, h2, h3⟩ := C105_saved e X f t (t.addData i d) ht hu (by omega) h
  refine ⟨F, F', h1, h2, ?_⟩
  unfold valueSize at hc
  omega

/-! ### A concrete case -/

theorem addedW : (tagW.addData (.fourcc ARTIST) (.utf8 ['ä'])).atoms = atomsW ++ [⟨.fourcc ARTIST, [.utf8 ['ä']]⟩] := by decide

theorem addedW_writable : Writable env0 [] fileW (tagW.addData (.fourcc ARTIST) (.utf8 ['ä'])).atoms := by
  rw [addedW]
  exact {
    wf := fileW_WF
    fit := fileW_writable.fit
    store := fun a ha => by
      rcases List.mem_append.mp ha with h | h
      · exact (atomsW_store a h).1
      · rw [List.mem_singleton] at h
        subst h
        refine ⟨fun d hd => ?_, by decide⟩
        rw [List.mem_singleton] at hd
        subst hd
        trivial
    old := fileW_writable.old
    new := by decide +kernel
    pos := by decide +kernel
    tables := fileW_writable.tables }

/-- A new entry with a value of two bytes: 8 + 16 + 2. -/
example : ∃ F F', writeTag env0 ([] ++ fileW.ser) 0 tagW = (.ok (), F) ∧
    writeTag env0 ([] ++ fileW.ser) 0 (tagW.addData (.fourcc ARTIST) (.utf8 ['ä'])) = (.ok (), F') ∧ F'.length = F.length + 18 + 8 :=
  C105_add_saved env0 [] fileW tagW (.fourcc ARTIST) (.utf8 ['ä']) fileW_writable addedW_writable (by decide +kernel)

example : storedSize tagW = 98 ∧ (dumpTag env0 tagW).1.length = 93 + 98 ∧
    storedSize (tagW.setData (.freeform ⟨['m'], ['n']⟩) (.beSigned [1, 2])) + 34 = 98 + 18 ∧
    storedSize (tagW.removeDataOf (.freeform ⟨['m'], ['n']⟩)) + 34 + 34 = 98 := by decide +kernel

end Mp4.Props
