import Verif.Proof.TagOps
/-
C01–C10: a tag as an ordered map from identifiers to lists of values.
-/
namespace Mp4.Props
open Mp4 Spec

/-- A tag used in the non-vacuity examples: two string values, an image and a freeform entry. -/
def sampleTag : Tag :=
  { ftyp := "M4A ".toList
    atoms := [⟨.fourcc ARTIST, [.utf8 "a".toList, .reserved [1, 2], .utf16 "b".toList]⟩,
      ⟨.fourcc ARTWORK, [.png [1, 2, 3], .jpeg []]⟩,
      ⟨.freeform "m".toList "n".toList, [.beSigned [0, 7]]⟩] }

example : sampleTag.NoDup := by decide

/-! ### C01 -/

/-- **C01.** After any sequence of calls of the mutating API, starting from the default tag, from a tag
without duplicate identifiers or from a successful read of any byte sequence, no two entries carry the
same identifier. -/
theorem C01_unique_identifiers (start : Tag) (ops : List TagOp)
    (h : start = {} ∨ start.NoDup ∨ ∃ e F pos, readTag e F pos = .ok start) :
    (runOps ops start).NoDup := by
  apply runOps_noDup
  rcases h with rfl | h | ⟨e, F, pos, h⟩
  · simp [Tag.NoDup]
  · exact h
  · exact readTag_noDup h

/-- Stated on positions: equal identifiers are the same entry. -/
theorem C01_unique_positions (start : Tag) (ops : List TagOp)
    (h : start = {} ∨ start.NoDup ∨ ∃ e F pos, readTag e F pos = .ok start)
    (j k : Nat) (a b : AtomData) (hj : (runOps ops start).atoms[j]? = some a)
    (hk : (runOps ops start).atoms[k]? = some b) (he : a.ident = b.ident) : j = k := by
  have hn := C01_unique_identifiers start ops h
  simp only [Tag.NoDup] at hn
  have h1 : ((runOps ops start).atoms.map AtomData.ident)[j]? = some a.ident := by simp [hj]
  have h2 : ((runOps ops start).atoms.map AtomData.ident)[k]? = some a.ident := by simp [hk, he]
  have hlt : j < ((runOps ops start).atoms.map AtomData.ident).length :=
    (List.getElem?_eq_some_iff.mp h1).1
  exact (List.getElem?_inj hlt hn).mp (h1.trans h2.symm)

example : (runOps [.add (.fourcc ARTIST) (.utf8 []), .setPair trackI 1 2, .setGenre []] sampleTag).NoDup
    ∧ (runOps [.add (.fourcc ARTIST) (.utf8 []), .setPair trackI 1 2, .setGenre []]
        sampleTag).atoms.length = 5 := by decide

/-! ### C02 -/

theorem dataOf_abs (t : Tag) (i : Ident) : t.dataOf i = t.abs.vals i.toData := by
  rw [Tag.abs_eq, Tag.dataOf_eq]

/-- **C02.** `set_all_data(i, ds)`: exactly `ds` is stored under `i`, and no other identifier changes.
No hypothesis on the tag. -/
theorem C02_set_all (t : Tag) (i j : Ident) (ds : List Data) :
    (t.setAllData i ds).dataOf j = if j.toData = i.toData then ds else t.dataOf j := by
  simp only [dataOf_abs, abs_setAllData, OMap.put, OMap.upd]

/-- **C02.** `set_data(i, d)`. -/
theorem C02_set (t : Tag) (i j : Ident) (d : Data) :
    (t.setData i d).dataOf j = if j.toData = i.toData then [d] else t.dataOf j := by
  simp only [dataOf_abs, abs_setData, OMap.put, OMap.upd]

/-- The three forms of an identifier (fourcc, freeform, owned) address the same entry exactly when they
denote the same identifier. -/
theorem C02_ident_forms (t : Tag) (i j : Ident) (h : i.toData = j.toData) : t.dataOf i = t.dataOf j := by
  simp only [dataOf_abs, h]

example : (sampleTag.setAllData (.data (.fourcc ARTIST)) [.bmp [9]]).dataOf (.fourcc ARTIST) = [.bmp [9]]
    ∧ (sampleTag.setAllData (.data (.fourcc ARTIST)) [.bmp [9]]).dataOf (.freeform ⟨"m".toList, "n".toList⟩)
      = [.beSigned [0, 7]] := by decide

/-! ### C03 -/

/-- **C03.** `add_all_data(i, ds)` appends `ds` under `i` and changes no other identifier. -/
theorem C03_add_all (t : Tag) (i j : Ident) (ds : List Data) :
    (t.addAllData i ds).dataOf j = if j.toData = i.toData then t.dataOf i ++ ds else t.dataOf j := by
  simp only [dataOf_abs, abs_addAllData, OMap.append, OMap.put, OMap.upd]

/-- **C03.** `add_data(i, d)`. -/
theorem C03_add (t : Tag) (i j : Ident) (d : Data) :
    (t.addData i d).dataOf j = if j.toData = i.toData then t.dataOf i ++ [d] else t.dataOf j := by
  simp only [dataOf_abs, abs_addData, OMap.append, OMap.put, OMap.upd]

/-! ### C04 -/

/-- **C04.** `remove_data_of(i)`. -/
theorem C04_remove (t : Tag) (i j : Ident) :
    (t.removeDataOf i).dataOf j = if j.toData = i.toData then [] else t.dataOf j := by
  simp only [dataOf_abs, abs_removeDataOf, OMap.del, OMap.upd]

/-- After `remove_data_of(i)` no entry for `i` is left. -/
theorem C04_remove_entry (t : Tag) (i : Ident) : i.toData ∉ (t.removeDataOf i).abs.keys := by
  simp [abs_removeDataOf, OMap.del]

theorem dataOf_retainDataOf (t : Tag) (i j : Ident) (p) (h : t.NoDup) :
    (t.retainDataOf i p).dataOf j
      = if j.toData = i.toData then (t.dataOf i).filter p else t.dataOf j := by
  simp only [dataOf_abs, abs_retainDataOf t i p h, OMap.keepOf]
  split
  · rename_i he
    simp only [OMap.del, OMap.upd, he]
  · simp only [OMap.upd]

/-- **C04.** `remove_bytes_of(i)` keeps, in order, exactly the values under `i` that are not bytes. -/
theorem C04_remove_bytes (t : Tag) (i j : Ident) (h : t.NoDup) :
    (t.removeBytesOf i).dataOf j
      = if j.toData = i.toData then (t.dataOf i).filter (·.bytes?.isNone) else t.dataOf j := by
  have : (fun d : Data => !d.isBytes) = fun d => d.bytes?.isNone := by funext d; cases d <;> rfl
  rw [Tag.removeBytesOf, dataOf_retainDataOf t i j _ h, this]

/-- **C04.** `remove_strings_of(i)`. -/
theorem C04_remove_strings (t : Tag) (i j : Ident) (h : t.NoDup) :
    (t.removeStringsOf i).dataOf j
      = if j.toData = i.toData then (t.dataOf i).filter (·.string?.isNone) else t.dataOf j := by
  have : (fun d : Data => !d.isString) = fun d => d.string?.isNone := by funext d; cases d <;> rfl
  rw [Tag.removeStringsOf, dataOf_retainDataOf t i j _ h, this]

/-- **C04.** `remove_images_of(i)`. -/
theorem C04_remove_images (t : Tag) (i j : Ident) (h : t.NoDup) :
    (t.removeImagesOf i).dataOf j
      = if j.toData = i.toData then (t.dataOf i).filter (·.image?.isNone) else t.dataOf j := by
  have : (fun d : Data => !d.isImage) = fun d => d.image?.isNone := by funext d; cases d <;> rfl
  rw [Tag.removeImagesOf, dataOf_retainDataOf t i j _ h, this]

example : (sampleTag.removeStringsOf (.fourcc ARTIST)).dataOf (.fourcc ARTIST) = [.reserved [1, 2]] := by
  decide

/-! ### C05 -/

/-- **C05.** What `take_data_of(i)` returns. -/
theorem C05_take_returns (t : Tag) (i : Ident) : (t.takeDataOf i).1 = t.dataOf i := takeDataOf_fst t i

/-- **C05.** What remains after `take_data_of(i)`. -/
theorem C05_take_removes (t : Tag) (i j : Ident) (h : t.NoDup) :
    (t.takeDataOf i).2.dataOf j = if j.toData = i.toData then [] else t.dataOf j := by
  rw [takeDataOf_snd t i h, C04_remove]

/-- The entry itself is gone. -/
theorem C05_take_entry (t : Tag) (i : Ident) (h : t.NoDup) : i.toData ∉ (t.takeDataOf i).2.abs.keys := by
  rw [takeDataOf_snd t i h]; exact C04_remove_entry t i

/-- **C05.** `take_bytes_of`, `take_strings_of`, `take_images_of` return what the corresponding query
returned, and leave the same tag as `take_data_of`. -/
theorem C05_take_kinds (t : Tag) (i : Ident) :
    (t.takeBytesOf i).1 = t.bytesOf i ∧ (t.takeStringsOf i).1 = t.stringsOf i ∧
    (t.takeImagesOf i).1 = t.imagesOf i ∧ (t.takeBytesOf i).2 = (t.takeDataOf i).2 ∧
    (t.takeStringsOf i).2 = (t.takeDataOf i).2 ∧ (t.takeImagesOf i).2 = (t.takeDataOf i).2 := by
  simp [Tag.takeBytesOf, Tag.takeStringsOf, Tag.takeImagesOf, Tag.bytesOf, Tag.stringsOf, Tag.imagesOf,
    takeDataOf_fst]

example : (sampleTag.takeStringsOf (.fourcc ARTIST)).1 = ["a".toList, "b".toList]
    ∧ (sampleTag.takeStringsOf (.fourcc ARTIST)).2.atoms.length = 2 := by decide

/-! ### C06 -/

/-- **C06.** `retain_data_of(i, p)`. -/
theorem C06_retain_of (t : Tag) (i j : Ident) (p : Data → Bool) (h : t.NoDup) :
    (t.retainDataOf i p).dataOf j
      = if j.toData = i.toData then (t.dataOf i).filter p else t.dataOf j :=
  dataOf_retainDataOf t i j p h

/-- **C06.** The entry disappears exactly when no value satisfies `p`. -/
theorem C06_retain_of_entries (t : Tag) (i : Ident) (p : Data → Bool) (h : t.NoDup) :
    (t.retainDataOf i p).abs.keys
      = if (t.dataOf i).any p then t.abs.keys else t.abs.keys.filter (· ≠ i.toData) := by
  rw [abs_retainDataOf t i p h, OMap.keepOf, dataOf_abs]
  by_cases he : (t.abs.vals i.toData).filter p = []
  · have : (t.abs.vals i.toData).any p = false := by
      rw [List.filter_eq_nil_iff] at he; simpa using he
    simp [he, this, OMap.del]
  · have : (t.abs.vals i.toData).any p = true := by
      rw [List.filter_eq_nil_iff] at he
      simpa using he
    simp [he, this]

/-- **C06.** `retain_data(p)`: what is stored under every identifier. -/
theorem C06_retain (t : Tag) (i : Ident) (p : DataIdent → Data → Bool) (h : t.NoDup) :
    (t.retainData p).dataOf i = (t.dataOf i).filter (p i.toData) := by
  simp only [dataOf_abs, abs_retainData t p h, OMap.keep]

/-- **C06.** `retain_data(p)`: the entries left, in order, are those with a value satisfying `p`; no
hypothesis on the tag. -/
theorem C06_retain_entries (t : Tag) (p : DataIdent → Data → Bool) :
    (t.retainData p).atoms
      = (t.atoms.filter fun a => a.data.any (p a.ident)).map
          fun a => ⟨a.ident, a.data.filter (p a.ident)⟩ := by
  rw [retainData_atoms]
  induction t.atoms with
  | nil => rfl
  | cons a l ih =>
    simp only [List.filterMap_cons, List.filter_cons, keepEntry, ih]
    by_cases he : a.data.filter (p a.ident) = []
    · have : a.data.any (p a.ident) = false := by rw [List.filter_eq_nil_iff] at he; simpa using he
      simp [he, this]
    · have : a.data.any (p a.ident) = true := by rw [List.filter_eq_nil_iff] at he; simpa using he
      simp [he, this]

/-- The rule of the kind-restricted variants: `p` decides on values of the kind `v`, others are kept. -/
def onlyKind {α} (v : Data → Option α) (p : α → Bool) (d : Data) : Bool :=
  match v d with
  | some b => p b
  | none => true

theorem onlyKind_eq {α} (v : Data → Option α) (p : α → Bool) :
    (fun d => mapOrTrue (v d) p) = onlyKind v p := by
  funext d; simp only [mapOrTrue, onlyKind]; cases v d <;> rfl

/-- **C06.** `retain_bytes_of`, `retain_strings_of`, `retain_images_of`. -/
theorem C06_retain_kinds_of (t : Tag) (i j : Ident) (h : t.NoDup) :
    (∀ p, (t.retainBytesOf i p).dataOf j
      = if j.toData = i.toData then (t.dataOf i).filter (onlyKind Data.bytes? p) else t.dataOf j) ∧
    (∀ p, (t.retainStringsOf i p).dataOf j
      = if j.toData = i.toData then (t.dataOf i).filter (onlyKind Data.string? p) else t.dataOf j) ∧
    (∀ p, (t.retainImagesOf i p).dataOf j
      = if j.toData = i.toData then (t.dataOf i).filter (onlyKind Data.image? p) else t.dataOf j) := by
  refine ⟨?_, ?_, ?_⟩ <;> intro p
  · rw [Tag.retainBytesOf, onlyKind_eq, C06_retain_of t i j _ h]
  · rw [Tag.retainStringsOf, onlyKind_eq, C06_retain_of t i j _ h]
  · rw [Tag.retainImagesOf, onlyKind_eq, C06_retain_of t i j _ h]

/-- **C06.** `retain_bytes`, `retain_strings`, `retain_images`. -/
theorem C06_retain_kinds (t : Tag) (i : Ident) (h : t.NoDup) :
    (∀ p, (t.retainBytes p).dataOf i = (t.dataOf i).filter (onlyKind Data.bytes? (p i.toData))) ∧
    (∀ p, (t.retainStrings p).dataOf i = (t.dataOf i).filter (onlyKind Data.string? (p i.toData))) ∧
    (∀ p, (t.retainImages p).dataOf i = (t.dataOf i).filter (onlyKind Data.image? (p i.toData))) := by
  refine ⟨?_, ?_, ?_⟩ <;> intro p
  · rw [Tag.retainBytes, C06_retain t i _ h, onlyKind_eq]
  · rw [Tag.retainStrings, C06_retain t i _ h, onlyKind_eq]
  · rw [Tag.retainImages, C06_retain t i _ h, onlyKind_eq]

/-- The kind-restricted rule seen through the views: the view of the kind is filtered by `p`, the values
of other kinds stay. -/
theorem C06_onlyKind {α} (v : Data → Option α) (p : α → Bool) (l : List Data) :
    (l.filter (onlyKind v p)).filterMap v = (l.filterMap v).filter p ∧
    (l.filter (onlyKind v p)).filter (fun d => (v d).isNone) = l.filter fun d => (v d).isNone := by
  induction l with
  | nil => simp
  | cons d l ih =>
    cases hv : v d with
    | none => simp [onlyKind, hv, ih, List.filter_cons]
    | some b =>
      by_cases hp : p b
      · simp [onlyKind, hv, ih, List.filter_cons, hp]
      · simp [onlyKind, hv, ih, List.filter_cons, hp]

example : (sampleTag.retainData fun _ d => d.len = 2).abs.keys
    = [.fourcc ARTIST, .freeform "m".toList "n".toList] := by decide

/-! ### C07 -/

/-- **C07.** Under every sequence of calls a tag behaves like the ordered map to which the meanings of
the calls are applied. -/
theorem C07_refines_ordered_map (start : Tag) (ops : List TagOp) (h : start.NoDup) :
    (runOps ops start).abs = ops.foldl OMap.apply start.abs :=
  abs_runOps ops start h

/-- The same starting from the default tag, as a statement about `data_of`. -/
theorem C07_from_default (ops : List TagOp) (i : Ident) :
    (runOps ops {}).dataOf i = (ops.foldl OMap.apply OMap.empty).vals i.toData := by
  have := C07_refines_ordered_map {} ops (by decide)
  rw [dataOf_abs, this]
  rfl

example : ([TagOp.add (.fourcc ARTIST) (.utf8 []), .clear, .setString (.fourcc TITLE) ['x'],
    .addString (.fourcc TITLE) ['y']].foldl OMap.apply sampleTag.abs).vals (.fourcc TITLE)
    = [.utf8 ['x'], .utf8 ['y']] := by decide

/-! ### C08 -/

theorem dataAll_abs (t : Tag) (h : t.NoDup) :
    t.dataAll = t.abs.keys.flatMap fun i => (t.dataOf (.data i)).map fun d => (i, d) := by
  have hd : ∀ i, t.dataOf (.data i) = valL t.atoms i := fun i => by rw [Tag.dataOf_eq]; rfl
  simp only [hd, Tag.dataAll, Tag.abs]
  obtain ⟨_, _, l⟩ := t
  simp only [Tag.NoDup] at h ⊢
  clear hd
  induction l with
  | nil => rfl
  | cons a l ih =>
    simp only [List.map_cons, List.nodup_cons] at h
    simp only [List.flatMap_cons, List.map_cons, valL_cons, if_true, ih h.2]
    congr 1
    have hc : ∀ (ks : List DataIdent), (∀ i ∈ ks, i ≠ a.ident) →
        (ks.flatMap fun i => (valL l i).map fun d => (i, d))
          = ks.flatMap fun i => (if a.ident = i then a.data else valL l i).map fun d => (i, d) := by
      intro ks hk
      induction ks with
      | nil => rfl
      | cons k ks ihk =>
        have h1 : ¬ a.ident = k := fun e => hk k (by simp) e.symm
        simp only [List.flatMap_cons, h1, if_false]
        rw [ihk (fun i hi => hk i (by simp [hi]))]
    apply hc
    rintro i hi rfl
    exact h.1 hi

/-- **C08.** `data()` enumerates exactly the stored pairs: for every identifier in entry order, its
values in order. -/
theorem C08_data (t : Tag) (h : t.NoDup) :
    t.dataAll = t.abs.keys.flatMap fun i => (t.dataOf (.data i)).map fun d => (i, d) := dataAll_abs t h

/-- **C08.** For every identifier, `data()` restricted to it is `data_of`. -/
theorem C08_data_of (t : Tag) (h : t.NoDup) (i : Ident) :
    (t.dataAll.filter fun x => x.1 = i.toData).map Prod.snd = t.dataOf i := by
  rw [Tag.dataOf_eq]
  simp only [Tag.dataAll]
  obtain ⟨_, _, l⟩ := t
  simp only [Tag.NoDup] at h ⊢
  have hz : ∀ l : List AtomData, i.toData ∉ keysL l →
      ((l.flatMap fun a => a.data.map fun d => (a.ident, d)).filter fun x => x.1 = i.toData) = [] := by
    intro l hl
    rw [List.filter_eq_nil_iff]
    intro x hx
    simp only [List.mem_flatMap, List.mem_map] at hx
    obtain ⟨a, ha, d, _, rfl⟩ := hx
    simp only [decide_eq_true_eq]
    intro he
    have : a.ident ∈ keysL l := List.mem_map_of_mem ha
    rw [he] at this
    exact hl this
  induction l with
  | nil => rfl
  | cons a l ih =>
    simp only [List.map_cons, List.nodup_cons] at h
    simp only [List.flatMap_cons, List.filter_append, List.map_append, valL_cons]
    by_cases he : a.ident = i.toData
    · have h0 := hz l (by rw [← he]; exact h.1)
      simp only [he, if_true, h0, List.map_nil, List.append_nil]
      have : ((a.data.map fun d => (i.toData, d)).filter fun x => decide (x.1 = i.toData))
          = a.data.map fun d => (i.toData, d) := by
        rw [List.filter_eq_self]; intro x hx; simp only [List.mem_map] at hx
        obtain ⟨d, _, rfl⟩ := hx; simp
      rw [this]; simp [List.map_map, Function.comp_def]
    · have : ((a.data.map fun d => (a.ident, d)).filter fun x => decide (x.1 = i.toData)) = [] := by
        rw [List.filter_eq_nil_iff]; intro x hx; simp only [List.mem_map] at hx
        obtain ⟨d, _, rfl⟩ := hx; simpa using he
      simp only [this, he, if_false, List.map_nil, List.nil_append]
      exact ih h.2

/-- **C08.** `bytes()`, `strings()`, `images()` enumerate, for every identifier in entry order, what
`bytes_of`, `strings_of`, `images_of` return. -/
theorem C08_kinds (t : Tag) (h : t.NoDup) :
    t.bytesAll = (t.abs.keys.flatMap fun i => (t.bytesOf (.data i)).map fun b => (i, b)) ∧
    t.stringsAll = (t.abs.keys.flatMap fun i => (t.stringsOf (.data i)).map fun b => (i, b)) ∧
    t.imagesAll = (t.abs.keys.flatMap fun i => (t.imagesOf (.data i)).map fun b => (i, b)) := by
  have key : ∀ {α} (v : Data → Option α) (ks : List DataIdent) (g : DataIdent → List Data),
      (ks.flatMap fun i => (g i).map fun d => (i, d)).filterMap
        (fun x : DataIdent × Data => (v x.2).map fun b => (x.1, b))
      = ks.flatMap fun i => ((g i).filterMap v).map fun b => (i, b) := by
    intro α v ks g
    induction ks with
    | nil => rfl
    | cons k ks ih =>
      simp only [List.flatMap_cons, List.filterMap_append, ih]
      congr 1
      rw [List.filterMap_map, List.map_filterMap]
      rfl
  refine ⟨?_, ?_, ?_⟩
  · rw [Tag.bytesAll, C08_data t h]; exact key Data.bytes? _ _
  · rw [Tag.stringsAll, C08_data t h]; exact key Data.string? _ _
  · rw [Tag.imagesAll, C08_data t h]; exact key Data.image? _ _

/-- **C08.** The consuming variants yield the same sequences. -/
theorem C08_take (t : Tag) : t.takeData = t.dataAll ∧ t.takeBytes = t.bytesAll ∧
    t.takeStrings = t.stringsAll ∧ t.takeImages = t.imagesAll := ⟨rfl, rfl, rfl, rfl⟩

/-- **C08.** `is_empty()` holds iff there is no entry, `clear()` makes it hold and removes all data. -/
theorem C08_is_empty (t : Tag) :
    (t.isEmpty = true ↔ t.abs.keys = []) ∧ t.clear.isEmpty = true ∧ t.clear.dataAll = [] ∧
    (∀ i, t.clear.dataOf i = []) ∧ t.clear.ftyp = t.ftyp ∧ t.clear.info = t.info := by
  refine ⟨?_, rfl, rfl, fun i => rfl, rfl, rfl⟩
  simp [Tag.isEmpty, Tag.abs]

example : sampleTag.dataAll.length = 6 ∧ sampleTag.stringsAll.length = 2 := by decide

/-! ### C09 -/

/-- **C09.** Mutation through `data_mut_of(i)` with an arbitrary function of position and value: the
values of other identifiers are unchanged, under `i` each value is replaced in place. -/
theorem C09_data_mut_of (t : Tag) (i j : Ident) (f : Nat → Data → Data) :
    (t.dataMutOf i f).dataOf j
      = if j.toData = i.toData then (t.dataOf i).mapIdx f else t.dataOf j := by
  simp only [dataOf_abs, abs_dataMutOf, OMap.modify]
  split
  · simp only [OMap.upd]
  · rename_i hi
    split
    · rename_i he
      have : t.abs.vals i.toData = [] := by rw [Tag.abs_eq] at hi ⊢; exact valL_not_mem _ _ hi
      simp [he, this]
    · rfl

/-- **C09.** No entry is created, removed or reordered. -/
theorem C09_entries (t : Tag) (i : Ident) (f : Nat → Data → Data) :
    (t.dataMutOf i f).abs.keys = t.abs.keys := by
  simp only [abs_dataMutOf, OMap.modify]; split <;> rfl

/-- **C09.** Through the typed views values of other kinds are unchanged, the number of values stays
and no value changes its kind. `kinds` observes the kinds of a value list. -/
theorem C09_typed_views (t : Tag) (i : Ident) :
    let kinds (l : List Data) := l.map fun d => (d.isBytes, d.isString, d.isImage)
    (∀ f, kinds ((t.bytesMutOf i f).dataOf i) = kinds (t.dataOf i) ∧
      ((t.bytesMutOf i f).dataOf i).filter (!·.isBytes) = (t.dataOf i).filter (!·.isBytes)) ∧
    (∀ f, kinds ((t.stringsMutOf i f).dataOf i) = kinds (t.dataOf i) ∧
      ((t.stringsMutOf i f).dataOf i).filter (!·.isString) = (t.dataOf i).filter (!·.isString)) ∧
    (∀ f, kinds ((t.imagesMutOf i f).dataOf i) = kinds (t.dataOf i) ∧
      ((t.imagesMutOf i f).dataOf i).filter (!·.isImage) = (t.dataOf i).filter (!·.isImage)) := by
  have key : ∀ (g : Nat → Data → Data) (k : Data → Bool × Bool × Bool) (q : Data → Bool)
      (_ : ∀ n d, k (g n d) = k d) (_ : ∀ n d, q d = true → g n d = d)
      (_ : ∀ n d, q (g n d) = q d) (l : List Data),
      (l.mapIdx g).map k = l.map k ∧ (l.mapIdx g).filter q = l.filter q := by
    intro g k q h1 h2 h3 l
    induction l generalizing g with
    | nil => simp
    | cons d l ih =>
      have := ih (fun n => g (n + 1)) (fun n => h1 _) (fun n => h2 _) (fun n => h3 _)
      simp only [List.mapIdx_cons, List.map_cons, this.1, h1, List.filter_cons, h3, this.2, true_and]
      split
      · rename_i hq; rw [h2 _ _ hq]
      · rfl
  refine ⟨?_, ?_, ?_⟩ <;> intro f
  · simp only [Tag.bytesMutOf, C09_data_mut_of, if_true]
    exact key _ _ _ (fun n d => by cases d <;> rfl) (fun n d => by cases d <;> simp [Data.isBytes, Data.modBytes])
      (fun n d => by cases d <;> rfl) _
  · simp only [Tag.stringsMutOf, C09_data_mut_of, if_true]
    exact key _ _ _ (fun n d => by cases d <;> rfl)
      (fun n d => by cases d <;> simp [Data.isString, Data.modString]) (fun n d => by cases d <;> rfl) _
  · simp only [Tag.imagesMutOf, C09_data_mut_of, if_true]
    exact key _ _ _ (fun n d => by cases d <;> rfl)
      (fun n d => by cases d <;> simp [Data.isImage, Data.modImage]) (fun n d => by cases d <;> rfl) _

/-- **C09.** The typed views give access to the payload: the view afterwards is the view before with
the function applied. (Stated for a function that does not depend on the position.) -/
theorem C09_typed_effect (t : Tag) (i : Ident) :
    (∀ f : Bytes → Bytes, (t.bytesMutOf i fun _ => f).bytesOf i = (t.bytesOf i).map f) ∧
    (∀ f : Str → Str, (t.stringsMutOf i fun _ => f).stringsOf i = (t.stringsOf i).map f) ∧
    (∀ f : Bytes → Bytes, (t.imagesMutOf i fun _ => f).imagesOf i
      = (t.imagesOf i).map fun x => ⟨x.fmt, f x.data⟩) := by
  have key : ∀ {α} (g : Data → Data) (v : Data → Option α) (f : α → α)
      (_ : ∀ d, v (g d) = (v d).map f) (l : List Data),
      (l.mapIdx fun _ => g).filterMap v = (l.filterMap v).map f := by
    intro α g v f h l
    have : (l.mapIdx fun _ => g) = l.map g := by
      induction l with
      | nil => rfl
      | cons d l ih => simp [List.mapIdx_cons, ih]
    rw [this, List.filterMap_map, List.map_filterMap]
    congr 1
    funext d
    exact h d
  refine ⟨?_, ?_, ?_⟩ <;> intro f
  · simp only [Tag.bytesMutOf, Tag.bytesOf, C09_data_mut_of, if_true]
    exact key _ _ _ (fun d => by cases d <;> rfl) _
  · simp only [Tag.stringsMutOf, Tag.stringsOf, C09_data_mut_of, if_true]
    exact key _ _ _ (fun d => by cases d <;> rfl) _
  · simp only [Tag.imagesMutOf, Tag.imagesOf, C09_data_mut_of, if_true]
    exact key _ _ _ (fun d => by cases d <;> rfl) _

example : (sampleTag.bytesMutOf (.fourcc ARTIST) fun k v => v ++ [UInt8.ofNat k]).dataOf (.fourcc ARTIST)
    = [.utf8 "a".toList, .reserved [1, 2, 1], .utf16 "b".toList] := by decide

/-! ### C10 -/

/-- **C10.** Exactly one kind, and each view returns the payload exactly for its kind. -/
theorem C10_kinds (d : Data) :
    ((d.isBytes && !d.isString && !d.isImage) || (!d.isBytes && d.isString && !d.isImage) ||
      (!d.isBytes && !d.isString && d.isImage)) = true ∧
    d.isBytes = d.bytes?.isSome ∧ d.isString = d.string?.isSome ∧ d.isImage = d.image?.isSome := by
  cases d <;> simp [Data.isBytes, Data.isString, Data.isImage, Data.bytes?, Data.string?, Data.image?]

/-- **C10.** The payload and the image format. -/
theorem C10_payload (v : Bytes) (s : Str) :
    (Data.reserved v).bytes? = some v ∧ (Data.beSigned v).bytes? = some v ∧
    (Data.utf8 s).string? = some s ∧ (Data.utf16 s).string? = some s ∧
    (Data.jpeg v).image? = some ⟨.jpeg, v⟩ ∧ (Data.png v).image? = some ⟨.png, v⟩ ∧
    (Data.bmp v).image? = some ⟨.bmp, v⟩ := ⟨rfl, rfl, rfl, rfl, rfl, rfl, rfl⟩

/-- **C10.** Converting an image to a value and back is the identity. -/
theorem C10_image_roundtrip (i : Img) : (Data.ofImg i).image? = some i := by
  obtain ⟨f, v⟩ := i; cases f <;> rfl

end Mp4.Props
