import Verif.Model.Tag
/-
Editing a tag with code of the caller that has effects or panics: predicates (`impl Fn(&Data) -> bool`, which may have interior
mutability) and iterators. After a panic the tag can still be observed (`catch_unwind`, destructors).
-/
namespace Mp4

/-- A predicate of the caller: its answer, `none` if it panics, and the state of the caller afterwards. -/
abbrev Caller (σ α : Type) := α → σ → Option Bool × σ

/-- `Vec::retain` (std): the values are visited in order; if the predicate panics, the values not yet visited and the one being
visited are kept (the guard `BackshiftOnDrop`). The second component tells whether it panicked. -/
def vecRetain {σ} (p : Caller σ Data) : List Data → σ → List Data × Bool × σ
  | [], s => ([], false, s)
  | d :: ds, s =>
    match p d s with
    | (some true, s') => (d :: (vecRetain p ds s').1, (vecRetain p ds s').2)
    | (some false, s') => vecRetain p ds s'
    | (none, s') => (d :: ds, true, s')

/-- `Tag::retain_data_of` (src/tag/mod.rs:1052-1061). -/
def Tag.retainDataOfC {σ} (t : Tag) (i : Ident) (p : Caller σ Data) (s : σ) : Tag × Bool × σ :=
  match t.atoms.findIdx? fun a => i.matches a.ident with
  | none => (t, false, s)
  | some k =>
    match t.atoms[k]? with
    | none => (t, false, s)
    | some a =>
      match vecRetain p a.data s with
      | (ds, true, s') => ({ t with atoms := t.atoms.set k ⟨a.ident, ds⟩ }, true, s')
      | (ds, false, s') =>
        if ds.isEmpty then ({ t with atoms := (t.atoms.set k ⟨a.ident, ds⟩).eraseIdx k }, false, s')
        else ({ t with atoms := t.atoms.set k ⟨a.ident, ds⟩ }, false, s')

/-- `Option::map_or(true, …)` (std) with a predicate of the caller. -/
def mapOrTrueC {σ α} (x : Option α) (p : Caller σ α) (s : σ) : Option Bool × σ :=
  match x with
  | some a => p a s
  | none => (some true, s)

/-- `Tag::retain_bytes_of` (src/tag/mod.rs:965-967). -/
def Tag.retainBytesOfC {σ} (t : Tag) (i : Ident) (p : Caller σ Bytes) (s : σ) : Tag × Bool × σ :=
  t.retainDataOfC i (fun d => mapOrTrueC d.bytes? p) s

/-- `Tag::retain_strings_of` (src/tag/mod.rs:994-996). -/
def Tag.retainStringsOfC {σ} (t : Tag) (i : Ident) (p : Caller σ Str) (s : σ) : Tag × Bool × σ :=
  t.retainDataOfC i (fun d => mapOrTrueC d.string? p) s

/-- `Tag::retain_images_of` (src/tag/mod.rs:1023-1025). -/
def Tag.retainImagesOfC {σ} (t : Tag) (i : Ident) (p : Caller σ Img) (s : σ) : Tag × Bool × σ :=
  t.retainDataOfC i (fun d => mapOrTrueC d.image? p) s

/-- The inner loop of `Tag::retain_data` (src/tag/mod.rs:1188-1195). -/
def retainInnerC {σ} (p : Caller σ Data) (l : List Data) (j : Nat) (s : σ) : List Data × Bool × σ :=
  if h : j < l.length then
    match p l[j] s with
    | (some true, s') => retainInnerC p l (j + 1) s'
    | (some false, s') => retainInnerC p (l.eraseIdx j) j s'
    | (none, s') => (l, true, s')
  else (l, false, s)
termination_by l.length - j
decreasing_by
  · omega
  · rw [List.length_eraseIdx_of_lt h]; omega

/-- The outer loop of `Tag::retain_data` (src/tag/mod.rs:1185-1202). -/
def retainOuterC {σ} (p : DataIdent → Caller σ Data) (l : List AtomData) (i : Nat) (s : σ) : List AtomData × Bool × σ :=
  if h : i < l.length then
    match retainInnerC (p l[i].ident) l[i].data 0 s with
    | (ds, true, s') => (l.set i ⟨l[i].ident, ds⟩, true, s')
    | (ds, false, s') =>
      if ds.isEmpty then retainOuterC p ((l.set i ⟨l[i].ident, ds⟩).eraseIdx i) i s'
      else retainOuterC p (l.set i ⟨l[i].ident, ds⟩) (i + 1) s'
  else (l, false, s)
termination_by l.length - i
decreasing_by
  · rw [List.length_eraseIdx_of_lt (by rw [List.length_set]; exact h), List.length_set]; omega
  · rw [List.length_set]; omega

/-- `Tag::retain_data` (src/tag/mod.rs:1184-1203). -/
def Tag.retainDataC {σ} (t : Tag) (p : DataIdent → Caller σ Data) (s : σ) : Tag × Bool × σ :=
  match retainOuterC p t.atoms 0 s with
  | (l, r) => ({ t with atoms := l }, r)

/-- `Tag::retain_bytes` (src/tag/mod.rs:1091-1093). -/
def Tag.retainBytesC {σ} (t : Tag) (p : DataIdent → Caller σ Bytes) (s : σ) : Tag × Bool × σ :=
  t.retainDataC (fun i d => mapOrTrueC d.bytes? (p i)) s

/-- `Tag::retain_strings` (src/tag/mod.rs:1123-1125). -/
def Tag.retainStringsC {σ} (t : Tag) (p : DataIdent → Caller σ Str) (s : σ) : Tag × Bool × σ :=
  t.retainDataC (fun i d => mapOrTrueC d.string? (p i)) s

/-- `Tag::retain_images` (src/tag/mod.rs:1155-1157). -/
def Tag.retainImagesC {σ} (t : Tag) (p : DataIdent → Caller σ Img) (s : σ) : Tag × Bool × σ :=
  t.retainDataC (fun i d => mapOrTrueC d.image? (p i)) s

/-- An iterator of the caller: the values it yields, and whether it then panics instead of ending. -/
structure Source where
  items : List Data
  panics : Bool

/-- `Tag::set_all_data` (src/tag/mod.rs:1267-1281): the old values are removed before the iterator is run; `Vec::extend` (std) keeps
the values that were yielded before a panic, `collect` drops them. -/
def Tag.setAllDataC (t : Tag) (i : Ident) (src : Source) : Tag × Bool :=
  match modFirst i (fun a => { a with data := src.items }) t.atoms with
  | some l => ({ t with atoms := l }, src.panics)
  | none => if src.panics then (t, true) else ({ t with atoms := t.atoms ++ [⟨i.toData, src.items⟩] }, false)

/-- `Tag::add_all_data` (src/tag/mod.rs:1329-1338). -/
def Tag.addAllDataC (t : Tag) (i : Ident) (src : Source) : Tag × Bool :=
  match modFirst i (fun a => { a with data := a.data ++ src.items }) t.atoms with
  | some l => ({ t with atoms := l }, src.panics)
  | none => if src.panics then (t, true) else ({ t with atoms := t.atoms ++ [⟨i.toData, src.items⟩] }, false)

end Mp4
