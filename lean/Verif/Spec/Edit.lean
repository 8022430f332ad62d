import Verif.Spec.Commute
/-
The entries that a program of calls is not about.
-/
namespace Mp4.Spec
open Mp4

/-- No call of the program is about the entry. -/
def untouched (p : List TagOp) (a : AtomData) : Bool := p.all fun o => !about a.ident o

end Mp4.Spec
