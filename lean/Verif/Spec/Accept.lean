import Verif.Spec.Multi
/-
Which input counts as well-formed.
-/
namespace Mp4.Spec

/-- From `p` on, the input is a file: `ftyp` and other atoms, which fill the input, at least one movie atom among them; and the
contents of the containers in the movie atoms are completely filled with atoms as well. -/
def Accepted (F : Bytes) (p : Nat) : Prop :=
  p ≤ F.length ∧ ((∃ f : File, f.WF ∧ F = F.take p ++ f.ser) ∨ ∃ g : Movies, g.WF ∧ F = F.take p ++ g.ser)

/-- From `p` on, the input consists of atoms, exactly one of which is a movie atom. Nothing is said about their contents. -/
structure TopLevel (F : Bytes) (p : Nat) (A : List Box) (m : Box) (B : List Box) : Prop where
  start : p ≤ F.length
  all : F = F.take p ++ serL id A ++ m.ser ++ serL id B
  movie : m.fc = cc 'm' 'o' 'o' 'v' ∧ m.Fits
  front : ∀ b ∈ A, b.Fits ∧ b.fc ≠ cc 'm' 'o' 'o' 'v'
  behind : ∀ b ∈ B, b.Fits ∧ b.fc ≠ cc 'm' 'o' 'o' 'v'

end Mp4.Spec
