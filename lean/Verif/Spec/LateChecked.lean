import Verif.Spec.Build
import Verif.Spec.Sane

/-!
# What a build with overflow checks insists on once writing has begun
-/

namespace Mp4.Spec

/-- The values and the names of an item are not so long that the size of their atoms exceeds 32 bits. -/
def ShortParts (a : AtomData) : Prop :=
  (∀ d ∈ a.data, 16 + (payload d).length < 2^32) ∧
  ∀ mean name, a.ident = .freeform mean name → 12 + (utf8 mean).length < 2^32 ∧ 12 + (utf8 name).length < 2^32

/-- No movie, user data or metadata atom claims a size of `2^62` or more, wherever in the input it seems to begin. -/
def SmallOuter (F : Bytes) : Prop :=
  ∀ ext n rest fc, fc ∈ [cc 'm' 'o' 'o' 'v', cc 'u' 'd' 't' 'a', cc 'm' 'e' 't' 'a'] → HeadIn F ext fc n rest → n < 2^62

end Mp4.Spec
