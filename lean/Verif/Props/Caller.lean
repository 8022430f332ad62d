import Verif.Proof.Caller
import Verif.Props.TagMap
/-
C95: editing a tag with code of the caller that has effects or panics.
-/
namespace Mp4.Props
open Mp4 Spec

/-- **C95.** `retain_data` asks the caller about every value once, in order, until the caller panics. The values that were refused are
gone, all others stay, and the panic is passed on. -/
theorem C95_retain {σ} (t : Tag) (p : DataIdent → Caller σ Data) (s : σ) :
    (t.retainDataC p s).2 = (ask (fun x : DataIdent × Data => p x.1 x.2) t.dataAll s).2 ∧
    (t.retainDataC p s).1.dataAll = keepBy (ask (fun x : DataIdent × Data => p x.1 x.2) t.dataAll s).1 t.dataAll := by
  rw [retainDataC_eq]
  exact sweep_ask p t.atoms s

/-- **C95.** Entries are only removed, so that no identifier occurs twice even after a panic; without a panic all entries that are left
have values. -/
theorem C95_retain_entries {σ} (t : Tag) (p : DataIdent → Caller σ Data) (s : σ) :
    ((t.retainDataC p s).1.atoms.map AtomData.ident).Sublist (t.atoms.map AtomData.ident) ∧
    (t.NoDup → (t.retainDataC p s).1.NoDup) ∧
    ((t.retainDataC p s).2.1 = false → ∀ a ∈ (t.retainDataC p s).1.atoms, a.data ≠ []) ∧
    (t.retainDataC p s).1.ftyp = t.ftyp ∧ (t.retainDataC p s).1.info = t.info := by
  rw [retainDataC_eq]
  exact ⟨sweep_keys p _ s, fun h => h.sublist (sweep_keys p _ s), sweep_full p _ s, rfl, rfl⟩

/-- **C95.** `retain_data_of`: the caller is asked about the values of the identifier only. -/
theorem C95_retain_of {σ} (t : Tag) (i j : Ident) (p : Caller σ Data) (s : σ) (h : t.NoDup) :
    (t.retainDataOfC i p s).2 = (ask p (t.dataOf i) s).2 ∧
    (t.retainDataOfC i p s).1.dataOf j = (if j.toData = i.toData then keepBy (ask p (t.dataOf i) s).1 (t.dataOf i) else t.dataOf j) ∧
    (t.retainDataOfC i p s).1.NoDup := by
  rcases retainDataOfC_eq t i p s with ⟨hn, he⟩ | ⟨l1, a, l2, hl, h1, h2, he⟩
  · rw [he]
    have hv : t.dataOf i = [] := by rw [Tag.dataOf_eq]; exact valL_not_mem _ _ hn
    refine ⟨by rw [hv]; rfl, ?_, h⟩
    split
    · rename_i hj
      rw [hv, Tag.dataOf_eq, hj, ← Tag.dataOf_eq, hv]; rfl
    · rfl
  · have hv : t.dataOf i = a.data := by rw [Tag.dataOf_eq, hl]; simp [valL_append, h1, h2]
    rw [he, hv]
    have hnd : (keysL (l1 ++ a :: l2)).Nodup := by rw [← hl]; exact h
    have hn2 : i.toData ∉ keysL l2 := by
      rw [keysL_append, keysL_cons, List.nodup_append] at hnd
      rw [← h2]
      exact (List.nodup_cons.mp hnd.2.1).1
    refine ⟨rfl, ?_, ?_⟩
    · rw [Tag.dataOf_eq, Tag.dataOf_eq, hl]
      dsimp only
      by_cases hj : j.toData = i.toData
      · rw [if_pos hj, hj, List.append_assoc, valL_append, if_neg h1]
        split
        · rename_i hk
          rw [List.nil_append, valL_not_mem _ _ hn2, hk.2]
        · simp [h2]
      · have : ¬ a.ident = j.toData := fun e => hj (e.symm.trans h2)
        rw [if_neg hj, List.append_assoc, valL_append, valL_append l1 (a :: l2)]
        split
        · rfl
        · split <;> simp [this]
    · show (List.map AtomData.ident _).Nodup
      refine List.Nodup.sublist ?_ hnd
      show (List.map AtomData.ident _).Sublist (List.map AtomData.ident _)
      split
      · simp
      · simp

/-- Three values of two identifiers; the caller counts its calls and panics in the third one. Only the value that was refused before is
gone. -/
def tagC : Tag :=
  { atoms := [⟨.fourcc (cc 'a' 'a' 'a' 'a'), [.utf8 ['x'], .beSigned [1]]⟩, ⟨.fourcc (cc 'b' 'b' 'b' 'b'), [.utf8 ['y']]⟩] }

def counting (_ : DataIdent) (d : Data) (n : Nat) : Option Bool × Nat := (if n = 2 then none else some (d != .utf8 ['x']), n + 1)

example : tagC.retainDataC counting 0 =
    ({ tagC with atoms := [⟨.fourcc (cc 'a' 'a' 'a' 'a'), [.beSigned [1]]⟩, ⟨.fourcc (cc 'b' 'b' 'b' 'b'), [.utf8 ['y']]⟩] }, true, 3) ∧
    tagC.retainDataC counting 5 =
    ({ tagC with atoms := [⟨.fourcc (cc 'a' 'a' 'a' 'a'), [.beSigned [1]]⟩, ⟨.fourcc (cc 'b' 'b' 'b' 'b'), [.utf8 ['y']]⟩] }, false, 8) ∧
    tagC.retainDataOfC (.fourcc (cc 'a' 'a' 'a' 'a')) (counting (.fourcc (cc 'a' 'a' 'a' 'a'))) 1 =
    ({ tagC with atoms := [⟨.fourcc (cc 'a' 'a' 'a' 'a'), [.beSigned [1]]⟩, ⟨.fourcc (cc 'b' 'b' 'b' 'b'), [.utf8 ['y']]⟩] }, true, 3) ∧
    tagC.retainDataOfC (.fourcc (cc 'c' 'c' 'c' 'c')) (counting (.fourcc (cc 'c' 'c' 'c' 'c'))) 2 = (tagC, false, 2) := by
  refine ⟨?_, ?_, ?_, ?_⟩
  · rw [retainDataC_eq]; decide +kernel
  · rw [retainDataC_eq]; decide +kernel
  · decide +kernel
  · decide +kernel

/-- **C95.** For predicates without effects this is what C06 says. -/
theorem C95_pure {σ} (t : Tag) (s : σ) : (∀ q : DataIdent → Data → Bool, t.retainDataC (fun i d s => (some (q i d), s)) s = (t.retainData q, false, s)) ∧
    (∀ (i : Ident) (q : Data → Bool), t.NoDup → (t.retainDataOfC i (fun d s => (some (q d), s)) s).2 = (false, s) ∧
      ∀ j : Ident, (t.retainDataOfC i (fun d s => (some (q d), s)) s).1.dataOf j = (t.retainDataOf i q).dataOf j) := by
  refine ⟨fun q => ?_, fun i q h => ?_⟩
  · rw [retainDataC_eq, sweep_pure, ← retainData_atoms]
    rfl
  · refine ⟨?_, fun j => ?_⟩
    · rw [(C95_retain_of t i i _ s h).1, ask_pure]
    · rw [(C95_retain_of t i j _ s h).2.1, ask_pure, keepBy_filter, C06_retain_of t i j q h]

/-! ### Values of one kind -/

theorem ask_kind {σ α β} (v : α → Option β) (p : Caller σ β) : ∀ (l : List α) (s : σ),
    (ask (fun x => mapOrTrueC (v x) p) l s).2 = (ask p (l.filterMap v) s).2 ∧
    (keepBy (ask (fun x => mapOrTrueC (v x) p) l s).1 l).filterMap v = keepBy (ask p (l.filterMap v) s).1 (l.filterMap v) ∧
    (keepBy (ask (fun x => mapOrTrueC (v x) p) l s).1 l).filter (fun x => (v x).isNone) = l.filter fun x => (v x).isNone
  | [], s => ⟨rfl, rfl, rfl⟩
  | x :: l, s => by
    have ih := ask_kind v p l
    cases hv : v x with
    | none =>
      rw [ask, hv, List.filterMap_cons_none hv]
      simp only [mapOrTrueC, keepBy, if_true, List.filterMap_cons_none hv, List.filter_cons, hv, Option.isNone_none]
      exact ⟨(ih s).1, (ih s).2.1, by rw [(ih s).2.2]⟩
    | some y =>
      rw [ask, hv, List.filterMap_cons_some hv, ask]
      simp only [mapOrTrueC]
      rcases p y s with ⟨_ | _ | _, s'⟩
      · simp only [keepBy_nil, List.filterMap_cons_some hv]
        exact ⟨trivial, trivial, trivial⟩
      · simp only [keepBy, Bool.false_eq_true, if_false, List.filter_cons, hv, Option.isNone_some]
        exact ih s'
      · simp only [keepBy, if_true, List.filterMap_cons_some hv, List.filter_cons, hv, Option.isNone_some, Bool.false_eq_true, if_false]
        exact ⟨(ih s').1, by rw [(ih s').2.1], (ih s').2.2⟩

theorem mapOrTrueC_ident {σ β} (v : Data → Option β) (p : DataIdent → Caller σ β) (x : DataIdent × Data) :
    mapOrTrueC (v x.2) (p x.1) = mapOrTrueC (withIdent v x) (fun y : DataIdent × β => p y.1 y.2) := by
  funext s
  unfold mapOrTrueC withIdent
  cases v x.2 <;> rfl

theorem retain_kind {σ β} (v : Data → Option β) (t : Tag) (p : DataIdent → Caller σ β) (s : σ) :
    KindRun (withIdent v) (fun y : DataIdent × β => p y.1 y.2) s t.dataAll
      (t.retainDataC (fun i d => mapOrTrueC (v d) (p i)) s).1.dataAll (t.retainDataC (fun i d => mapOrTrueC (v d) (p i)) s).2 := by
  obtain ⟨h1, h2⟩ := C95_retain t (fun i d => mapOrTrueC (v d) (p i)) s
  have he : (fun x : DataIdent × Data => mapOrTrueC (v x.2) (p x.1)) =
      fun x => mapOrTrueC (withIdent v x) (fun y : DataIdent × β => p y.1 y.2) := by
    funext x; exact mapOrTrueC_ident v p x
  rw [he] at h1 h2
  obtain ⟨k1, k2, k3⟩ := ask_kind (withIdent v) (fun y : DataIdent × β => p y.1 y.2) t.dataAll s
  exact ⟨h1.trans k1, by rw [h2, k2], by rw [h2, k3]⟩

/-- **C95.** `retain_bytes`, `retain_strings`, `retain_images`. -/
theorem C95_kinds {σ} (t : Tag) (s : σ) :
    (∀ p, KindRun (withIdent Data.bytes?) (fun y => p y.1 y.2) s t.dataAll (t.retainBytesC p s).1.dataAll (t.retainBytesC p s).2) ∧
    (∀ p, KindRun (withIdent Data.string?) (fun y => p y.1 y.2) s t.dataAll (t.retainStringsC p s).1.dataAll (t.retainStringsC p s).2) ∧
    (∀ p, KindRun (withIdent Data.image?) (fun y => p y.1 y.2) s t.dataAll (t.retainImagesC p s).1.dataAll (t.retainImagesC p s).2) :=
  ⟨fun p => retain_kind _ t p s, fun p => retain_kind _ t p s, fun p => retain_kind _ t p s⟩

/-- **C95.** `retain_bytes_of`, `retain_strings_of`, `retain_images_of`; the values of other identifiers stay. -/
theorem C95_kinds_of {σ} (t : Tag) (i : Ident) (s : σ) (h : t.NoDup) :
    (∀ p, KindRun Data.bytes? p s (t.dataOf i) ((t.retainBytesOfC i p s).1.dataOf i) (t.retainBytesOfC i p s).2 ∧
      ∀ j : Ident, j.toData ≠ i.toData → (t.retainBytesOfC i p s).1.dataOf j = t.dataOf j) ∧
    (∀ p, KindRun Data.string? p s (t.dataOf i) ((t.retainStringsOfC i p s).1.dataOf i) (t.retainStringsOfC i p s).2 ∧
      ∀ j : Ident, j.toData ≠ i.toData → (t.retainStringsOfC i p s).1.dataOf j = t.dataOf j) ∧
    (∀ p, KindRun Data.image? p s (t.dataOf i) ((t.retainImagesOfC i p s).1.dataOf i) (t.retainImagesOfC i p s).2 ∧
      ∀ j : Ident, j.toData ≠ i.toData → (t.retainImagesOfC i p s).1.dataOf j = t.dataOf j) := by
  have key : ∀ {β} (v : Data → Option β) (p : Caller σ β),
      KindRun v p s (t.dataOf i) ((t.retainDataOfC i (fun d => mapOrTrueC (v d) p) s).1.dataOf i) (t.retainDataOfC i (fun d => mapOrTrueC (v d) p) s).2 ∧
      ∀ j : Ident, j.toData ≠ i.toData → (t.retainDataOfC i (fun d => mapOrTrueC (v d) p) s).1.dataOf j = t.dataOf j := by
    intro β v p
    have hr := fun j => C95_retain_of t i j (fun d => mapOrTrueC (v d) p) s h
    obtain ⟨k1, k2, k3⟩ := ask_kind v p (t.dataOf i) s
    refine ⟨⟨(hr i).1.trans k1, ?_, ?_⟩, fun j hj => ?_⟩
    · rw [(hr i).2.1, if_pos rfl, k2]
    · rw [(hr i).2.1, if_pos rfl, k3]
    · rw [(hr j).2.1, if_neg hj]
  exact ⟨fun p => key _ p, fun p => key _ p, fun p => key _ p⟩

example : tagC.retainStringsC (fun _ t n => (if n = 1 then none else some (t != ['x']), n + 1)) 0 =
    ({ tagC with atoms := [⟨.fourcc (cc 'a' 'a' 'a' 'a'), [.beSigned [1]]⟩, ⟨.fourcc (cc 'b' 'b' 'b' 'b'), [.utf8 ['y']]⟩] }, true, 2) := by
  rw [Tag.retainStringsC, retainDataC_eq]; decide +kernel

/-! ### Iterators -/

/-- **C95.** `add_all_data`: if the iterator panics, the values it yielded before are added if there is an entry, otherwise none; nothing
else changes. -/
theorem C95_add (t : Tag) (i : Ident) (src : Source) :
    (t.addAllDataC i src).2 = src.panics ∧
    (src.panics = false → (t.addAllDataC i src).1 = t.addAllData i src.items) ∧
    (i.toData ∈ t.abs.keys → (t.addAllDataC i src).1 = t.addAllData i src.items) ∧
    (i.toData ∉ t.abs.keys → src.panics = true → (t.addAllDataC i src).1 = t) := by
  unfold Tag.addAllDataC Tag.addAllData
  rcases split_first i.toData t.atoms with h | ⟨l1, a, l2, hl, h1, h2⟩
  · rw [modFirst_none _ _ _ h]
    refine ⟨?_, ?_, fun hk => absurd hk h, ?_⟩
    · cases src.panics <;> rfl
    · intro hp; simp [hp]
    · intro _ hp; simp [hp]
  · rw [hl, modFirst_split _ _ _ _ _ h1 h2]
    refine ⟨rfl, fun _ => rfl, fun _ => rfl, fun hk => absurd ?_ hk⟩
    show i.toData ∈ keysL t.atoms
    rw [hl]; simp [h2]

/-- **C95.** `set_all_data`: if the iterator panics, the values of an existing entry are replaced by those that were yielded before;
without an entry the tag stays as it is. -/
theorem C95_set (t : Tag) (i : Ident) (src : Source) :
    (t.setAllDataC i src).2 = src.panics ∧
    (src.panics = false → (t.setAllDataC i src).1 = t.setAllData i src.items) ∧
    (i.toData ∈ t.abs.keys → (t.setAllDataC i src).1 = t.setAllData i src.items) ∧
    (i.toData ∉ t.abs.keys → src.panics = true → (t.setAllDataC i src).1 = t) := by
  unfold Tag.setAllDataC Tag.setAllData
  rcases split_first i.toData t.atoms with h | ⟨l1, a, l2, hl, h1, h2⟩
  · rw [modFirst_none _ _ _ h]
    refine ⟨?_, ?_, fun hk => absurd hk h, ?_⟩
    · cases src.panics <;> rfl
    · intro hp; simp [hp]
    · intro _ hp; simp [hp]
  · rw [hl, modFirst_split _ _ _ _ _ h1 h2]
    refine ⟨rfl, fun _ => rfl, fun _ => rfl, fun hk => absurd ?_ hk⟩
    show i.toData ∈ keysL t.atoms
    rw [hl]; simp [h2]

/-- With `set_all_data`, the old values are lost if the iterator panics at once; an entry without values remains. -/
example : tagC.setAllDataC (.fourcc (cc 'b' 'b' 'b' 'b')) ⟨[], true⟩ =
    ({ tagC with atoms := [⟨.fourcc (cc 'a' 'a' 'a' 'a'), [.utf8 ['x'], .beSigned [1]]⟩, ⟨.fourcc (cc 'b' 'b' 'b' 'b'), []⟩] }, true) ∧
    tagC.addAllDataC (.fourcc (cc 'b' 'b' 'b' 'b')) ⟨[.utf8 ['z']], true⟩ =
    ({ tagC with atoms := [⟨.fourcc (cc 'a' 'a' 'a' 'a'), [.utf8 ['x'], .beSigned [1]]⟩, ⟨.fourcc (cc 'b' 'b' 'b' 'b'), [.utf8 ['y'], .utf8 ['z']]⟩] }, true) ∧
    tagC.addAllDataC (.fourcc (cc 'c' 'c' 'c' 'c')) ⟨[.utf8 ['z']], true⟩ = (tagC, true) := by decide +kernel

end Mp4.Props
