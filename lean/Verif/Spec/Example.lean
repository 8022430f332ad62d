import Verif.Model.Types
import Verif.Spec.TagMap
/-
What re-encoding the texts of a tag is expected to do.
-/
namespace Mp4.Spec

/-- `d'` is the same value as `d`, but the text is stored in UTF-8 if it was stored in UTF-16. -/
def SameInUtf8 (d d' : Data) : Prop :=
  (∀ s, d = .utf16 s → d' = .utf8 s) ∧ ((∀ s, d ≠ .utf16 s) → d' = d)

/-- `u` is `t` with all texts in UTF-8: the same file type and audio information, the same identifiers in the same order, each with
the same number of values, and the `k`-th value of the `j`-th entry is the same. -/
structure Reencoded (t u : Tag) : Prop where
  ftyp : u.ftyp = t.ftyp
  info : u.info = t.info
  idents : u.atoms.map (·.ident) = t.atoms.map (·.ident)
  count : u.atoms.map (·.data.length) = t.atoms.map (·.data.length)
  value : ∀ (j k : Nat) (a b : AtomData) (d d' : Data), t.atoms[j]? = some a → u.atoms[j]? = some b → a.data[k]? = some d → b.data[k]? = some d' → SameInUtf8 d d'

end Mp4.Spec
