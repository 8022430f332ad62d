import Verif.Spec.TagMap
/-
Lemmas relating the entry list of a tag to the ordered map specification.
-/
namespace Mp4
open Spec

theorem Ident.matches_eq (i : Ident) (j : DataIdent) : i.matches j = decide (j = i.toData) := by
  rw [Bool.eq_iff_iff, decide_eq_true_iff]
  cases i with
  | fourcc f =>
    cases j <;> simp only [Ident.matches, Ident.toData, DataIdent.fourcc.injEq, beq_iff_eq, reduceCtorEq,
      Bool.false_eq_true]
    exact eq_comm
  | freeform i =>
    cases j <;> simp only [Ident.matches, Ident.toData, DataIdent.freeform.injEq, beq_iff_eq, reduceCtorEq,
      Bool.false_eq_true, Bool.and_eq_true]
    constructor <;> (rintro ⟨h1, h2⟩; exact ⟨h1.symm, h2.symm⟩)
  | data i =>
    simp only [Ident.matches, Ident.toData, beq_iff_eq]
    exact eq_comm

/-- Identifiers of a list of entries. -/
def keysL (l : List AtomData) : List DataIdent := l.map AtomData.ident

/-- Values stored under an identifier in a list of entries. -/
def valL (l : List AtomData) (i : DataIdent) : List Data :=
  match l with
  | [] => []
  | a :: l => if a.ident = i then a.data else valL l i

@[simp] theorem keysL_nil : keysL [] = [] := rfl
@[simp] theorem keysL_cons (a l) : keysL (a :: l) = a.ident :: keysL l := rfl
@[simp] theorem keysL_append (l l') : keysL (l ++ l') = keysL l ++ keysL l' := by simp [keysL]
@[simp] theorem valL_nil (i) : valL [] i = [] := rfl
@[simp] theorem valL_cons (a l i) : valL (a :: l) i = if a.ident = i then a.data else valL l i := rfl

theorem valL_append (l l' i) : valL (l ++ l') i = if i ∈ keysL l then valL l i else valL l' i := by
  induction l with
  | nil => simp
  | cons a l ih =>
    simp only [List.cons_append, valL_cons, keysL_cons, List.mem_cons, ih]
    by_cases h : a.ident = i
    · simp [h]
    · have : ¬ i = a.ident := fun h' => h h'.symm
      simp [h, this]

theorem valL_not_mem (l i) (h : i ∉ keysL l) : valL l i = [] := by
  induction l with
  | nil => rfl
  | cons a l ih =>
    simp only [keysL_cons, List.mem_cons, not_or] at h
    simp [Ne.symm h.1, ih h.2]

theorem Tag.dataOf_eq (t : Tag) (i : Ident) : t.dataOf i = valL t.atoms i.toData := by
  obtain ⟨f, inf, l⟩ := t
  simp only [Tag.dataOf, findAtom]
  induction l with
  | nil => rfl
  | cons a l ih =>
    simp only [List.find?_cons, Ident.matches_eq, valL_cons] at *
    by_cases h : a.ident = i.toData
    · simp [h]
    · simp [h]; simpa using ih

theorem Tag.abs_eq (t : Tag) : t.abs = ⟨keysL t.atoms, valL t.atoms⟩ := by
  simp [Tag.abs, Tag.dataOf_eq, Ident.toData, keysL]

/-- Every list is free of an identifier or splits at its first occurrence. -/
theorem split_first (i : DataIdent) (l : List AtomData) :
    i ∉ keysL l ∨ ∃ l1 a l2, l = l1 ++ a :: l2 ∧ i ∉ keysL l1 ∧ a.ident = i := by
  induction l with
  | nil => simp
  | cons b l ih =>
    by_cases h : b.ident = i
    · exact .inr ⟨[], b, l, rfl, by simp, h⟩
    · rcases ih with ih | ⟨l1, a, l2, rfl, h1, h2⟩
      · exact .inl (by simp [ih]; exact fun h' => h h'.symm)
      · exact .inr ⟨b :: l1, a, l2, rfl, by simp [h1]; exact fun h' => h h'.symm, h2⟩

theorem modFirst_none (i f l) (h : i.toData ∉ keysL l) : modFirst i f l = none := by
  induction l with
  | nil => rfl
  | cons a l ih =>
    simp only [keysL_cons, List.mem_cons, not_or] at h
    simp [modFirst, Ident.matches_eq, Ne.symm h.1, ih h.2]

theorem modFirst_split (i : Ident) (f l1 a l2) (h : i.toData ∉ keysL l1) (ha : a.ident = i.toData) :
    modFirst i f (l1 ++ a :: l2) = some (l1 ++ f a :: l2) := by
  induction l1 with
  | nil => simp [modFirst, Ident.matches_eq, ha]
  | cons b l ih =>
    simp only [keysL_cons, List.mem_cons, not_or] at h
    simp [modFirst, Ident.matches_eq, Ne.symm h.1, ih h.2]

theorem upd_valL (l1 a l2 i v) (h : i ∉ keysL l1) (ha : a.ident = i) :
    OMap.upd (valL (l1 ++ a :: l2)) i v = valL (l1 ++ ⟨i, v⟩ :: l2) := by
  funext j
  simp only [OMap.upd, valL_append, valL_cons]
  by_cases hj : j = i
  · subst hj; simp [h]
  · have : ¬ i = j := fun e => hj e.symm
    simp [hj, ha, this]

theorem upd_not_mem (l i v) (h : i ∉ keysL l) :
    OMap.upd (valL l) i v = valL (l ++ [⟨i, v⟩]) := by
  funext j
  simp only [OMap.upd, valL_append, valL_cons, valL_nil]
  by_cases hj : j = i
  · subst hj; simp [h]
  · have : ¬ i = j := fun e => hj e.symm
    simp only [hj, this, if_false]
    split
    · rfl
    · rename_i hm; exact valL_not_mem _ _ hm

/-- The common shape of `set_data`, `set_all_data`, `add_data`, `add_all_data`. -/
theorem abs_upsert (t : Tag) (i : Ident) (g : List Data → List Data) (ds : List Data) (hg : g [] = ds) :
    (match modFirst i (fun a => { a with data := g a.data }) t.atoms with
      | some l => { t with atoms := l }
      | none => { t with atoms := t.atoms ++ [⟨i.toData, ds⟩] } : Tag).abs
    = t.abs.put i.toData (g (t.abs.vals i.toData)) := by
  obtain ⟨f, inf, l⟩ := t
  simp only [Tag.abs_eq, OMap.put]
  rcases split_first i.toData l with h | ⟨l1, a, l2, rfl, h1, h2⟩
  · rw [modFirst_none _ _ _ h]
    simp [OMap.insKey, h, upd_not_mem, valL_not_mem, hg]
  · rw [modFirst_split _ _ _ _ _ h1 h2]
    have hv : valL (l1 ++ a :: l2) i.toData = a.data := by simp [valL_append, h1, h2]
    simp only [hv, upd_valL _ _ _ _ _ h1 h2]
    simp only [keysL_append, keysL_cons, OMap.insKey, h2]
    simp [← h2]

theorem abs_setAllData (t : Tag) (i : Ident) (ds) : (t.setAllData i ds).abs = t.abs.put i.toData ds :=
  abs_upsert t i (fun _ => ds) ds rfl

theorem abs_setData (t : Tag) (i : Ident) (d) : (t.setData i d).abs = t.abs.put i.toData [d] :=
  abs_upsert t i (fun _ => [d]) [d] rfl

theorem abs_addAllData (t : Tag) (i : Ident) (ds) :
    (t.addAllData i ds).abs = t.abs.append i.toData ds :=
  abs_upsert t i (· ++ ds) ds rfl

theorem abs_addData (t : Tag) (i : Ident) (d) : (t.addData i d).abs = t.abs.append i.toData [d] :=
  abs_upsert t i (· ++ [d]) [d] rfl

/-- Deleting an identifier from an entry list. -/
theorem filter_keys (l : List AtomData) (i : DataIdent) :
    keysL (l.filter fun a => !decide (a.ident = i)) = (keysL l).filter (· ≠ i) := by
  induction l with
  | nil => rfl
  | cons a l ih =>
    by_cases h : a.ident = i <;> simp_all [List.filter_cons]

theorem filter_vals (l : List AtomData) (i j : DataIdent) :
    valL (l.filter fun a => !decide (a.ident = i)) j = if j = i then [] else valL l j := by
  induction l with
  | nil => simp
  | cons a l ih =>
    by_cases h : a.ident = i
    · subst h
      simp only [List.filter_cons, decide_true, Bool.not_true, Bool.false_eq_true, if_false, ih, valL_cons]
      by_cases hj : j = a.ident
      · simp [hj]
      · simp [hj, Ne.symm hj]
    · simp only [List.filter_cons, h, decide_false, Bool.not_false, if_true, valL_cons, ih]
      by_cases hj : j = i
      · subst hj; simp [h]
      · simp [hj]

theorem abs_removeDataOf (t : Tag) (i : Ident) : (t.removeDataOf i).abs = t.abs.del i.toData := by
  simp only [Tag.abs_eq, Tag.removeDataOf, Ident.matches_eq, OMap.del, filter_keys]
  congr 1
  funext j
  simp [filter_vals, OMap.upd]

theorem filter_eq_of_not_mem (l : List AtomData) (i : DataIdent) (h : i ∉ keysL l) :
    (l.filter fun a => !decide (a.ident = i)) = l := by
  rw [List.filter_eq_self]
  intro a ha
  have : a.ident ∈ keysL l := List.mem_map_of_mem ha
  simp only [Bool.not_eq_true', decide_eq_false_iff_not]
  intro e; subst e; exact h this

theorem Tag.NoDup.right {t : Tag} {l1 a l2} (h : t.NoDup) (e : t.atoms = l1 ++ a :: l2) :
    a.ident ∉ keysL l1 ∧ a.ident ∉ keysL l2 := by
  simp only [Tag.NoDup, e, List.map_append, List.map_cons, List.nodup_append, List.nodup_cons] at h
  refine ⟨fun hm => ?_, h.2.1.1⟩
  exact h.2.2 _ hm _ (by simp) rfl

theorem takeLoop_eq (i : Ident) (f : Nat) (l1 l2 : List AtomData) (hf : l2.length < f) :
    (i.toData ∉ keysL l2 → takeLoop i f (l1 ++ l2) l1.length = ([], l1 ++ l2)) ∧
    (∀ m1 a m2, l2 = m1 ++ a :: m2 → i.toData ∉ keysL m1 → a.ident = i.toData →
      takeLoop i f (l1 ++ l2) l1.length = (a.data, l1 ++ m1 ++ m2)) := by
  induction f generalizing l1 l2 with
  | zero => omega
  | succ f ih =>
    cases l2 with
    | nil =>
      constructor
      · intro _
        simp [takeLoop]
      · intro m1 a m2 h; simp at h
    | cons b l2 =>
      have hb : (l1 ++ b :: l2)[l1.length]? = some b := by simp
      have step := ih (l1 ++ [b]) l2 (by simpa using hf)
      simp only [List.append_assoc, List.singleton_append, List.length_append, List.length_singleton]
        at step
      constructor
      · intro h
        simp only [keysL_cons, List.mem_cons, not_or] at h
        simp only [takeLoop, hb, Ident.matches_eq, Ne.symm h.1, decide_false, Bool.false_eq_true, if_false]
        exact step.1 h.2
      · intro m1 a m2 h h1 h2
        simp only [takeLoop, hb, Ident.matches_eq]
        cases m1 with
        | nil =>
          simp only [List.nil_append, List.cons.injEq] at h
          obtain ⟨rfl, rfl⟩ := h
          simp [h2, List.eraseIdx_append]
        | cons c m1 =>
          simp only [List.cons_append, List.cons.injEq] at h
          obtain ⟨rfl, rfl⟩ := h
          simp only [keysL_cons, List.mem_cons, not_or] at h1
          simp only [Ne.symm h1.1, decide_false, Bool.false_eq_true, if_false]
          rw [step.2 m1 a m2 rfl h1.2 h2]
          simp

theorem takeDataOf_fst (t : Tag) (i : Ident) : (t.takeDataOf i).1 = t.dataOf i := by
  rw [Tag.dataOf_eq]
  have := takeLoop_eq i (t.atoms.length + 1) [] t.atoms (by omega)
  simp only [List.nil_append, List.length_nil] at this
  simp only [Tag.takeDataOf]
  rcases split_first i.toData t.atoms with h | ⟨l1, a, l2, e, h1, h2⟩
  · rw [this.1 h, valL_not_mem _ _ h]
  · rw [this.2 _ _ _ e h1 h2, e]; simp [valL_append, h1, h2]

theorem takeDataOf_snd (t : Tag) (i : Ident) (hn : t.NoDup) : (t.takeDataOf i).2 = t.removeDataOf i := by
  have := takeLoop_eq i (t.atoms.length + 1) [] t.atoms (by omega)
  simp only [List.nil_append, List.length_nil] at this
  simp only [Tag.takeDataOf, Tag.removeDataOf, Ident.matches_eq]
  rcases split_first i.toData t.atoms with h | ⟨l1, a, l2, e, h1, h2⟩
  · rw [this.1 h, filter_eq_of_not_mem _ _ h]
  · rw [this.2 _ _ _ e h1 h2, e]
    have hr := (hn.right e).2
    rw [h2] at hr
    rw [List.filter_append, List.filter_cons, filter_eq_of_not_mem _ _ h1, filter_eq_of_not_mem _ _ hr]
    simp [h2]

/-! ### retain -/

theorem findIdx_split (i : Ident) (l1 : List AtomData) (a l2) (h : i.toData ∉ keysL l1) (ha : a.ident = i.toData) :
    (l1 ++ a :: l2).findIdx? (fun (a : AtomData) => i.matches a.ident) = some l1.length := by
  induction l1 with
  | nil => simp [List.findIdx?_cons, Ident.matches_eq, ha]
  | cons b l ih =>
    simp only [keysL_cons, List.mem_cons, not_or] at h
    have hb : i.matches b.ident = false := by simp [Ident.matches_eq, Ne.symm h.1]
    simp [List.findIdx?_cons, hb, ih h.2]

theorem findIdx_none (i : Ident) (l) (h : i.toData ∉ keysL l) :
    l.findIdx? (fun (a : AtomData) => i.matches a.ident) = none := by
  induction l with
  | nil => rfl
  | cons b l ih =>
    simp only [keysL_cons, List.mem_cons, not_or] at h
    have hb : i.matches b.ident = false := by simp [Ident.matches_eq, Ne.symm h.1]
    simp [List.findIdx?_cons, hb, ih h.2]

theorem modify_split (l1 : List AtomData) (a l2 f) :
    (l1 ++ a :: l2).modify l1.length f = l1 ++ f a :: l2 := by
  induction l1 with
  | nil => rfl
  | cons b l ih => simp [List.modify_succ_cons, ih]

theorem eraseIdx_split (l1 : List AtomData) (a l2) : (l1 ++ a :: l2).eraseIdx l1.length = l1 ++ l2 := by
  simp [List.eraseIdx_append]

/-- `retain_data_of` on an entry list split at the identifier. -/
theorem retainDataOf_split (t : Tag) (i : Ident) (p l1 a l2) (e : t.atoms = l1 ++ a :: l2)
    (h : i.toData ∉ keysL l1) (ha : a.ident = i.toData) :
    (t.retainDataOf i p).atoms
      = if a.data.filter p = [] then l1 ++ l2 else l1 ++ ⟨i.toData, a.data.filter p⟩ :: l2 := by
  simp only [Tag.retainDataOf, e, findIdx_split _ _ _ _ h ha, modify_split]
  have : (l1 ++ { a with data := List.filter p a.data } :: l2)[l1.length]?
      = some { a with data := List.filter p a.data } := by simp
  simp only [this, List.isEmpty_iff, eraseIdx_split]
  split <;> simp [← ha]

theorem retainDataOf_none (t : Tag) (i : Ident) (p) (h : i.toData ∉ keysL t.atoms) :
    t.retainDataOf i p = t := by
  simp [Tag.retainDataOf, findIdx_none _ _ h]

theorem abs_retainDataOf (t : Tag) (i : Ident) (p) (hn : t.NoDup) :
    (t.retainDataOf i p).abs = t.abs.keepOf i.toData p := by
  rcases split_first i.toData t.atoms with h | ⟨l1, a, l2, e, h1, h2⟩
  · rw [retainDataOf_none _ _ _ h]
    simp only [Tag.abs_eq, OMap.keepOf, valL_not_mem _ _ h, List.filter_nil, if_true, OMap.del]
    congr 1
    · symm; rw [List.filter_eq_self]; intro x hx; simp; rintro rfl; exact h hx
    · funext j; simp only [OMap.upd]; split
      · rename_i hj; rw [hj, valL_not_mem _ _ h]
      · rfl
  · have hr := (hn.right e).2
    rw [h2] at hr
    have hv : valL t.atoms i.toData = a.data := by rw [e]; simp [valL_append, h1, h2]
    rw [Tag.abs_eq, retainDataOf_split _ _ _ _ _ _ e h1 h2]
    simp only [Tag.abs_eq, OMap.keepOf, hv]
    split
    · have ek : l1 ++ l2 = (l1 ++ a :: l2).filter fun a => !decide (a.ident = i.toData) := by
        rw [List.filter_append, List.filter_cons, filter_eq_of_not_mem _ _ h1,
          filter_eq_of_not_mem _ _ hr]
        simp [h2]
      simp only [OMap.del, e]
      rw [ek, filter_keys]
      congr 1
      funext j
      rw [filter_vals]
      rfl
    · rw [e, upd_valL _ _ _ _ _ h1 h2]
      simp [← h2]

theorem retainInner_eq (p : Data → Bool) (f : Nat) (l1 l2 : List Data) (hf : l2.length < f) :
    retainInner p f (l1 ++ l2) l1.length = l1 ++ l2.filter p := by
  induction f generalizing l1 l2 with
  | zero => omega
  | succ f ih =>
    cases l2 with
    | nil => simp [retainInner]
    | cons d l2 =>
      have hb : (l1 ++ d :: l2)[l1.length]? = some d := by simp
      simp only [retainInner, hb]
      split
      · rename_i hp
        have := ih (l1 ++ [d]) l2 (by simpa using hf)
        simp only [List.append_assoc, List.singleton_append, List.length_append,
          List.length_singleton] at this
        rw [this]
        simp [List.filter_cons, hp]
      · rename_i hp
        have := ih l1 l2 (by simp at hf; omega)
        have he : (l1 ++ d :: l2).eraseIdx l1.length = l1 ++ l2 := by simp [List.eraseIdx_append]
        rw [he, this]
        simp [List.filter_cons, hp]

/-- What `retain_data` leaves of an entry. -/
def keepEntry (p : DataIdent → Data → Bool) (a : AtomData) : Option AtomData :=
  if a.data.filter (p a.ident) = [] then none else some ⟨a.ident, a.data.filter (p a.ident)⟩

theorem retainOuter_eq (p) (f : Nat) (l1 l2 : List AtomData) (hf : l2.length < f) :
    retainOuter p f (l1 ++ l2) l1.length = l1 ++ l2.filterMap (keepEntry p) := by
  induction f generalizing l1 l2 with
  | zero => omega
  | succ f ih =>
    cases l2 with
    | nil => simp [retainOuter]
    | cons a l2 =>
      have hb : (l1 ++ a :: l2)[l1.length]? = some a := by simp
      have hi := retainInner_eq (p a.ident) (a.data.length + 1) [] a.data (by omega)
      simp only [List.nil_append, List.length_nil] at hi
      simp only [retainOuter, hb, hi, List.isEmpty_iff]
      split
      · rename_i hp
        rw [eraseIdx_split, ih l1 l2 (by simp at hf; omega)]
        simp [keepEntry, hp]
      · rename_i hp
        have hs : (l1 ++ a :: l2).set l1.length { a with data := a.data.filter (p a.ident) }
            = l1 ++ ⟨a.ident, a.data.filter (p a.ident)⟩ :: l2 := by simp
        have := ih (l1 ++ [⟨a.ident, a.data.filter (p a.ident)⟩]) l2 (by simpa using hf)
        simp only [List.append_assoc, List.singleton_append, List.length_append,
          List.length_singleton] at this
        rw [hs, this]
        simp [keepEntry, hp]

theorem retainData_atoms (t : Tag) (p) : (t.retainData p).atoms = t.atoms.filterMap (keepEntry p) := by
  have := retainOuter_eq p (t.atoms.length + 1) [] t.atoms (by omega)
  simpa [Tag.retainData] using this

theorem keep_not_mem (p) (l : List AtomData) (i) (h : i ∉ keysL l) :
    i ∉ keysL (l.filterMap (keepEntry p)) := by
  induction l with
  | nil => simp
  | cons a l ih =>
    simp only [keysL_cons, List.mem_cons, not_or] at h
    simp only [List.filterMap_cons, keepEntry]
    split
    · exact ih h.2
    · rename_i b hb
      split at hb
      · simp at hb
      · simp only [Option.some.injEq] at hb; subst hb
        simp [h.1, ih h.2]

theorem keep_vals (p) (l : List AtomData) (i) (hn : (keysL l).Nodup) :
    valL (l.filterMap (keepEntry p)) i = (valL l i).filter (p i) := by
  induction l with
  | nil => rfl
  | cons a l ih =>
    simp only [keysL_cons, List.nodup_cons] at hn
    simp only [List.filterMap_cons, valL_cons]
    by_cases he : a.data.filter (p a.ident) = []
    · simp only [keepEntry, he, if_true, ih hn.2]
      split
      · rename_i ha; subst ha
        rw [valL_not_mem _ _ hn.1, he]; rfl
      · rfl
    · simp only [keepEntry, he, if_false, valL_cons, ih hn.2]
      split
      · rename_i ha; subst ha; rfl
      · rfl

theorem keep_keys (p) (l : List AtomData) (hn : (keysL l).Nodup) :
    keysL (l.filterMap (keepEntry p)) = (keysL l).filter fun i => (valL l i).any (p i) := by
  induction l with
  | nil => rfl
  | cons a l ih =>
    simp only [keysL_cons, List.nodup_cons] at hn
    have hany : ((valL (a :: l) a.ident).any (p a.ident)) = !decide (a.data.filter (p a.ident) = []) := by
      simp only [valL_cons, if_true]
      rw [Bool.eq_iff_iff]
      simp [List.filter_eq_nil_iff]
    have hrest : (keysL l).filter (fun i => (valL (a :: l) i).any (p i))
        = (keysL l).filter fun i => (valL l i).any (p i) := by
      apply List.filter_congr
      intro x hx
      have : ¬ a.ident = x := by rintro rfl; exact hn.1 hx
      simp [this]
    simp only [List.filterMap_cons, keysL_cons, List.filter_cons, hany, hrest]
    by_cases he : a.data.filter (p a.ident) = []
    · simp [keepEntry, he, ih hn.2]
    · simp [keepEntry, he, ih hn.2]

theorem abs_retainData (t : Tag) (p) (hn : t.NoDup) : (t.retainData p).abs = t.abs.keep p := by
  simp only [Tag.abs_eq, retainData_atoms, OMap.keep]
  rw [keep_keys p _ hn]
  congr 1
  funext i
  exact keep_vals p _ _ hn

/-! ### mutable views -/

theorem abs_dataMutOf (t : Tag) (i : Ident) (f) :
    (t.dataMutOf i f).abs = t.abs.modify i.toData fun l => l.mapIdx f := by
  simp only [Tag.dataMutOf]
  rcases split_first i.toData t.atoms with h | ⟨l1, a, l2, e, h1, h2⟩
  · rw [modFirst_none _ _ _ h]
    simp [Tag.abs_eq, OMap.modify, h]
  · rw [e, modFirst_split _ _ _ _ _ h1 h2]
    have hv : valL (l1 ++ a :: l2) i.toData = a.data := by simp [valL_append, h1, h2]
    simp only [Tag.abs_eq, OMap.modify, e, hv, upd_valL _ _ _ _ _ h1 h2]
    simp [← h2]

theorem mapIdx_keys (l : List AtomData) (g : Nat → AtomData → List Data) :
    keysL (l.mapIdx fun j a => { a with data := g j a }) = keysL l := by
  induction l generalizing g with
  | nil => rfl
  | cons a l ih => simp [List.mapIdx_cons, ih]

theorem mapIdx_vals (l : List AtomData) (g : Nat → List Data → List Data) (i) :
    valL (l.mapIdx fun j a => { a with data := g j a.data }) i
      = if i ∈ keysL l then g ((keysL l).idxOf i) (valL l i) else valL l i := by
  induction l generalizing g with
  | nil => rfl
  | cons a l ih =>
    have := ih (fun j => g (j + 1))
    simp only [List.mapIdx_cons, valL_cons, this, keysL_cons, List.mem_cons, List.idxOf_cons]
    by_cases h : a.ident = i
    · simp [h]
    · have h' : ¬ i = a.ident := fun e => h e.symm
      have hb : (a.ident == i) = false := by simp [h]
      simp [h, h', hb]

theorem abs_dataMut (t : Tag) (f) :
    (t.dataMut f).abs = t.abs.modifyAll fun j l => l.mapIdx (f j) := by
  simp only [Tag.abs_eq, Tag.dataMut, OMap.modifyAll]
  congr 1
  · exact mapIdx_keys t.atoms fun j a => a.data.mapIdx (f j)
  · funext i
    exact mapIdx_vals t.atoms (fun j l => l.mapIdx (f j)) i

theorem isBytes_iff (d : Data) : d.isBytes = d.bytes?.isSome := by cases d <;> rfl

theorem modFirstBytes_eq (f) (l : List Data) :
    modFirstBytes f l = (l.findIdx? Data.isBytes).map fun k => l.modify k (Data.modBytes f) := by
  induction l with
  | nil => rfl
  | cons d l ih =>
    simp only [modFirstBytes, List.findIdx?_cons, isBytes_iff]
    cases h : d.bytes? with
    | some v => simp [List.modify]
    | none =>
      simp only [ih, Option.isSome_none, Bool.false_eq_true, if_false, Option.map_map]
      congr 1

theorem withFirstBytes_none (t : Tag) (i : Ident) (f) (h : i.toData ∉ keysL t.atoms) :
    t.withFirstBytes i f = none := by
  have : findAtom i t.atoms = none := by
    simp only [findAtom, List.find?_eq_none, Ident.matches_eq]
    intro a ha
    have : a.ident ∈ keysL t.atoms := List.mem_map_of_mem ha
    simp only [decide_eq_true_eq]
    intro e; rw [e] at this; exact h this
  simp [Tag.withFirstBytes, this]

theorem findAtom_split (i : Ident) (l1 a l2) (h : i.toData ∉ keysL l1) (ha : a.ident = i.toData) :
    findAtom i (l1 ++ a :: l2) = some a := by
  induction l1 with
  | nil => simp [findAtom, Ident.matches_eq, ha]
  | cons b l ih =>
    simp only [keysL_cons, List.mem_cons, not_or] at h
    have := ih h.2
    simp only [findAtom] at this ⊢
    have hb : i.matches b.ident = false := by simp [Ident.matches_eq, Ne.symm h.1]
    simp [hb, this]

theorem abs_firstBytes (t : Tag) (i : Ident) (f) (d : Data) :
    ((t.withFirstBytes i f).getD (t.setData i d)).abs = t.abs.firstBytes i.toData f d := by
  simp only [OMap.firstBytes]
  rcases split_first i.toData t.atoms with h | ⟨l1, a, l2, e, h1, h2⟩
  · have hv : t.abs.vals i.toData = [] := by rw [Tag.abs_eq]; exact valL_not_mem _ _ h
    rw [withFirstBytes_none _ _ _ h, hv]
    simp [abs_setData]
  · have hv : t.abs.vals i.toData = a.data := by rw [Tag.abs_eq, e]; simp [valL_append, h1, h2]
    rw [hv]
    simp only [Tag.withFirstBytes, e, findAtom_split _ _ _ _ h1 h2, modFirstBytes_eq]
    cases hk : a.data.findIdx? Data.isBytes with
    | none => simp [abs_setData]
    | some k =>
      simp only [Option.map_some, modFirst_split _ _ _ _ _ h1 h2, Option.getD_some]
      simp only [Tag.abs_eq, e, upd_valL _ _ _ _ _ h1 h2]
      simp [← h2]

/-- `withFirstBytes` is defined exactly when there is a byte value. -/
theorem withFirstBytes_isSome (t : Tag) (i : Ident) (f) :
    (t.withFirstBytes i f).isSome = (t.bytesOf i).head?.isSome := by
  rcases split_first i.toData t.atoms with h | ⟨l1, a, l2, e, h1, h2⟩
  · simp [withFirstBytes_none _ _ _ h, Tag.bytesOf, Tag.dataOf_eq, valL_not_mem _ _ h]
  · have hv : t.dataOf i = a.data := by rw [Tag.dataOf_eq, e]; simp [valL_append, h1, h2]
    simp only [Tag.withFirstBytes, Tag.bytesOf, hv, e, findAtom_split _ _ _ _ h1 h2, modFirstBytes_eq]
    have key : (a.data.findIdx? Data.isBytes).isSome = (a.data.filterMap Data.bytes?).head?.isSome := by
      generalize a.data = l
      induction l with
      | nil => rfl
      | cons d l ih =>
        simp only [List.findIdx?_cons, isBytes_iff, List.filterMap_cons]
        cases h : d.bytes? <;> simp_all [isBytes_iff]
    rw [← key]
    cases hk : a.data.findIdx? Data.isBytes with
    | none => rfl
    | some k => simp [modFirst_split _ _ _ _ _ h1 h2]

end Mp4
