import Verif.Spec.Build
import Verif.Spec.TagMap
/-
How many bytes a tag takes when it is stored: a value takes its bytes and the 16 bytes of a data atom in front of them; an
identifier takes the 8 bytes of an atom head, and if it is free-form also two atoms with 12 bytes in front of a text.
-/
namespace Mp4.Spec
open Mp4

/-- The bytes that a value takes. -/
def valueSize (d : Data) : Nat := 16 + (payload d).length

/-- The bytes that an identifier takes, besides its values. -/
def identSize : DataIdent → Nat
  | .fourcc _ => 8
  | .freeform mean name => 8 + (12 + (utf8 mean).length) + (12 + (utf8 name).length)

/-- The bytes that values take. -/
def valuesSize (ds : List Data) : Nat := (ds.map valueSize).sum

/-- The bytes that the entries of a tag take. -/
def storedSize (t : Tag) : Nat := (t.atoms.map fun a => identSize a.ident + valuesSize a.data).sum

/-- Is there an entry? -/
def present (t : Tag) (i : Ident) : Prop := ∃ a ∈ t.atoms, a.ident = i.toData

instance (t : Tag) (i : Ident) : Decidable (present t i) := by unfold present; infer_instance

end Mp4.Spec
