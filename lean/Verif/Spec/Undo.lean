import Verif.Spec.Update

/-!
# Files that hold a tag exactly as it would be saved

The atoms that count are the last `udta`, the last `meta` in it and the last `ilst` in it (C15, C46).
-/

namespace Mp4.Spec
open Mp4

/-- The item list that counts consists of exactly these items, in the form in which they are saved, and there is a handler. -/
def Meta.Holds (atoms : List AtomData) (m : Meta) : Prop :=
  (∃ b ∈ m.kids, b.fc = cc 'h' 'd' 'l' 'r') ∧
  ∃ C D, m.kids = C ++ ilstBox atoms :: D ∧ ∀ b ∈ D, b.fc ≠ cc 'i' 'l' 's' 't'

/-- The same of the movie atom: the metadata that counts. -/
def Moov.Holds (atoms : List AtomData) (moov : Moov) : Prop :=
  ∃ A ext u B, moov = A ++ .udta ext u :: B ∧ B.filterMap MoovKid.udta? = [] ∧
    ∃ A' ext' m B', u = A' ++ .node ext' m :: B' ∧ B'.filterMap Kid.sel = [] ∧ m.Holds atoms

end Mp4.Spec
