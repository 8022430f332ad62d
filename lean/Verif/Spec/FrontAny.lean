import Verif.Spec.Sane
/-
Where in arbitrary bytes a movie atom may begin.
-/
namespace Mp4.Spec

/-- No movie atom begins in front of byte `n` of `F`: the four letters do not occur where they would be in its head. -/
def NoMovieBefore (F : Bytes) (n : Nat) : Prop := ∀ i, i < n → (F.drop (i + 4)).take 4 ≠ [109, 111, 111, 118]

end Mp4.Spec
