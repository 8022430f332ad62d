import Verif.Spec.Update
/-
Specification of the bytes of items with UTF-16 texts: their sizes are those of a text of half the length.
-/
namespace Mp4.Spec

/-- A value of the size that is claimed for a value: one byte per UTF-16 unit. -/
def standIn : Data → Data
  | .utf16 s => .reserved (List.replicate (utf16 s).length 0)
  | d => d

/-- An entry of the size that is claimed for an entry. -/
def claimOf (a : AtomData) : AtomData := ⟨a.ident, a.data.map standIn⟩

/-- The atoms `mean` and `name` of an identifier. -/
def identParts : DataIdent → List Part
  | .fourcc _ => []
  | .freeform mean name => [.mean false [0, 0, 0] mean, .name false [0, 0, 0] name]

/-- The item that is written for an entry: the sizes are those that are claimed, the values are complete. -/
def itemBytes (a : AtomData) : Bytes :=
  (entryOf (claimOf a)).box.head ++ serL Part.box (identParts a.ident) ++
    a.data.flatMap fun d => (dataPart (standIn d)).box.head ++ (dataPart d).box.body

/-- The content of the item list as it is written, and its claimed length. -/
def listBytes (atoms : List AtomData) : Bytes := atoms.flatMap itemBytes
def listClaim (atoms : List AtomData) : Nat := (serL Entry.box ((atoms.map claimOf).map entryOf)).length

/-- The number of UTF-16 units of a value. -/
def units : Data → Nat
  | .utf16 s => (utf16 s).length
  | _ => 0

/-- By how much the written content is longer: one byte per UTF-16 unit. -/
def surplus (atoms : List AtomData) : Nat := (atoms.map fun a => (a.data.map units).sum).sum

end Mp4.Spec
