import Verif.Model.Ops
/-
The methods of `Tag` taking `impl Ident` with an identifier type of the caller. The trait `Ident: PartialEq<DataIdent>` is public
(src/atom/ident.rs:152-157), so a caller can implement it, `PartialEq<DataIdent>` and `Into<DataIdent>` in any way. `Ident` of
Model/Ident.lean is one of the three types of the library.

Simplification: the comparison of the caller has no effects and does not panic. `Ident::fourcc` and `Ident::freeform` are not used by
these methods.
-/
namespace Mp4

/-- A value of an identifier type of the caller: `self == &ident` and `self.into()`. -/
structure UserIdent where
  eq : DataIdent → Bool
  into : DataIdent

/-- The identifiers of the library as such a value. -/
def Ident.user (i : Ident) : UserIdent := ⟨i.matches, i.toData⟩

/-- `match iter_mut().find(|a| ident == &a.ident) { Some(a) => f(a), None => .. }`, see `modFirst`. -/
def modFirstU (u : UserIdent) (f : AtomData → AtomData) : List AtomData → Option (List AtomData)
  | [] => none
  | a :: l => if u.eq a.ident then some (f a :: l) else (modFirstU u f l).map (a :: ·)

/-- `Tag::data_of` (src/tag/mod.rs:497-502). -/
def Tag.dataOfU (t : Tag) (u : UserIdent) : List Data :=
  match t.atoms.find? fun a => u.eq a.ident with
  | some a => a.data
  | none => []

/-- `Tag::data_mut_of` (src/tag/mod.rs:518-523). -/
def Tag.dataMutOfU (t : Tag) (u : UserIdent) (f : Nat → Data → Data) : Tag :=
  match modFirstU u (fun a => { a with data := a.data.mapIdx f }) t.atoms with
  | some l => { t with atoms := l }
  | none => t

/-- The loop of `Tag::take_data_of` (src/tag/mod.rs:539-549), see `takeLoop`. -/
def takeLoopU (u : UserIdent) : Nat → List AtomData → Nat → List Data × List AtomData
  | 0, l, _ => ([], l)
  | f+1, l, k =>
    match l[k]? with
    | some a => if u.eq a.ident then (a.data, l.eraseIdx k) else takeLoopU u f l (k + 1)
    | none => ([], l)

/-- `Tag::take_data_of` (src/tag/mod.rs:538-550). -/
def Tag.takeDataOfU (t : Tag) (u : UserIdent) : List Data × Tag :=
  let r := takeLoopU u (t.atoms.length + 1) t.atoms 0
  (r.1, { t with atoms := r.2 })

/-- `Tag::remove_data_of` (src/tag/mod.rs:936-938). -/
def Tag.removeDataOfU (t : Tag) (u : UserIdent) : Tag :=
  { t with atoms := t.atoms.filter fun a => !u.eq a.ident }

/-- `Tag::retain_data_of` (src/tag/mod.rs:1052-1061). -/
def Tag.retainDataOfU (t : Tag) (u : UserIdent) (p : Data → Bool) : Tag :=
  match t.atoms.findIdx? fun a => u.eq a.ident with
  | some k =>
    let l := t.atoms.modify k fun a => { a with data := a.data.filter p }
    match l[k]? with
    | some a => if a.data.isEmpty then { t with atoms := l.eraseIdx k } else { t with atoms := l }
    | none => t
  | none => t

/-- `Tag::set_data` (src/tag/mod.rs:1236-1244). -/
def Tag.setDataU (t : Tag) (u : UserIdent) (d : Data) : Tag :=
  match modFirstU u (fun a => { a with data := [d] }) t.atoms with
  | some l => { t with atoms := l }
  | none => { t with atoms := t.atoms ++ [⟨u.into, [d]⟩] }

/-- `Tag::set_all_data` (src/tag/mod.rs:1267-1281). -/
def Tag.setAllDataU (t : Tag) (u : UserIdent) (ds : List Data) : Tag :=
  match modFirstU u (fun a => { a with data := ds }) t.atoms with
  | some l => { t with atoms := l }
  | none => { t with atoms := t.atoms ++ [⟨u.into, ds⟩] }

/-- `Tag::add_data` (src/tag/mod.rs:1301-1306). -/
def Tag.addDataU (t : Tag) (u : UserIdent) (d : Data) : Tag :=
  match modFirstU u (fun a => { a with data := a.data ++ [d] }) t.atoms with
  | some l => { t with atoms := l }
  | none => { t with atoms := t.atoms ++ [⟨u.into, [d]⟩] }

/-- `Tag::add_all_data` (src/tag/mod.rs:1329-1338). -/
def Tag.addAllDataU (t : Tag) (u : UserIdent) (ds : List Data) : Tag :=
  match modFirstU u (fun a => { a with data := a.data ++ ds }) t.atoms with
  | some l => { t with atoms := l }
  | none => { t with atoms := t.atoms ++ [⟨u.into, ds⟩] }

/-- The operations that take an identifier of the caller, and those of `TagOp`. The methods for bytes, strings and images are
`take`, `retainOf` and `dataMutOf` with suitable functions (src/tag/mod.rs:345-369, 401-425, 461-482, 860-1025). -/
inductive UserOp where
  | set (u : UserIdent) (d : Data)
  | setAll (u : UserIdent) (ds : List Data)
  | add (u : UserIdent) (d : Data)
  | addAll (u : UserIdent) (ds : List Data)
  | remove (u : UserIdent)
  | retainOf (u : UserIdent) (p : Data → Bool)
  | take (u : UserIdent)
  | dataMutOf (u : UserIdent) (f : Nat → Data → Data)
  | lib (o : TagOp)

/-- The tag after the operation. -/
def UserOp.run (t : Tag) : UserOp → Tag
  | .set u d => t.setDataU u d
  | .setAll u ds => t.setAllDataU u ds
  | .add u d => t.addDataU u d
  | .addAll u ds => t.addAllDataU u ds
  | .remove u => t.removeDataOfU u
  | .retainOf u p => t.retainDataOfU u p
  | .take u => (t.takeDataOfU u).2
  | .dataMutOf u f => t.dataMutOfU u f
  | .lib o => o.run t

end Mp4
