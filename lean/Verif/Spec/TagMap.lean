import Verif.Model.Tag
/-
Specification of a tag as an ordered map: the identifiers in order of first insertion and, for every
identifier, the list of values stored under it. Written without reference to how the library
represents or searches its entries.
-/
namespace Mp4.Spec
open Mp4

/-- An ordered map from identifiers to lists of values. -/
structure OMap where
  keys : List DataIdent
  vals : DataIdent → List Data

namespace OMap

/-- `m[i] := v` -/
def upd (g : DataIdent → List Data) (i : DataIdent) (v : List Data) : DataIdent → List Data :=
  fun j => if j = i then v else g j

/-- A new identifier goes to the end. -/
def insKey (ks : List DataIdent) (i : DataIdent) : List DataIdent := if i ∈ ks then ks else ks ++ [i]

/-- The empty map. -/
def empty : OMap := ⟨[], fun _ => []⟩

/-- Store `ds` under `i`. -/
def put (m : OMap) (i : DataIdent) (ds : List Data) : OMap := ⟨insKey m.keys i, upd m.vals i ds⟩

/-- Append `ds` to the values under `i`. -/
def append (m : OMap) (i : DataIdent) (ds : List Data) : OMap := m.put i (m.vals i ++ ds)

/-- Delete `i`. -/
def del (m : OMap) (i : DataIdent) : OMap := ⟨m.keys.filter (· ≠ i), upd m.vals i []⟩

/-- Change the values under `i`, if it is present. -/
def modify (m : OMap) (i : DataIdent) (f : List Data → List Data) : OMap :=
  if i ∈ m.keys then ⟨m.keys, upd m.vals i (f (m.vals i))⟩ else m

/-- Keep the values under `i` satisfying `p`; if there are none, delete `i`. -/
def keepOf (m : OMap) (i : DataIdent) (p : Data → Bool) : OMap :=
  if (m.vals i).filter p = [] then m.del i else ⟨m.keys, upd m.vals i ((m.vals i).filter p)⟩

/-- Keep the values satisfying `p`, and the identifiers that still have a value. -/
def keep (m : OMap) (p : DataIdent → Data → Bool) : OMap :=
  ⟨m.keys.filter fun i => (m.vals i).any (p i), fun i => (m.vals i).filter (p i)⟩

/-- Change the values of every identifier; `j` is its index in the order. -/
def modifyAll (m : OMap) (f : Nat → List Data → List Data) : OMap :=
  ⟨m.keys, fun i => if i ∈ m.keys then f (m.keys.idxOf i) (m.vals i) else m.vals i⟩

/-- Change the first value of kind "bytes" under `i`, or store `new` if there is none. -/
def firstBytes (m : OMap) (i : DataIdent) (f : Bytes → Bytes) (new : Data) : OMap :=
  match (m.vals i).findIdx? Data.isBytes with
  | some k => ⟨m.keys, upd m.vals i ((m.vals i).modify k (Data.modBytes f))⟩
  | none => m.put i [new]

end OMap
end Mp4.Spec

namespace Mp4

/-- What can be observed of a tag, as an ordered map. -/
def Tag.abs (t : Tag) : Spec.OMap := ⟨t.atoms.map AtomData.ident, fun i => t.dataOf (.data i)⟩

/-- No identifier occurs twice. Users of the crate can only obtain such tags (C01): `AtomData` is not
exported (src/lib.rs:65-68), so `Tag::new` is only usable with an empty list. -/
def Tag.NoDup (t : Tag) : Prop := (t.atoms.map AtomData.ident).Nodup

instance (t : Tag) : Decidable t.NoDup := by unfold Tag.NoDup; infer_instance

end Mp4
