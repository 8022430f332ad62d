import Verif.Spec.Update
/-
Specification for repeated saves: a movie atom with a place for the body of its item list.
-/
namespace Mp4.Spec

/-- What is around the item list that a save replaces: the children in front of it and behind it, on each level. -/
structure Slot where
  kids : List MoovKid
  udtaExt : Bool
  ukids : List (Kid Meta)
  metaExt : Bool
  flags : Bytes
  mkids : List Box
  mkids' : List Box
  ukids' : List (Kid Meta)
  kids' : List MoovKid

def Slot.metaAt (p : Slot) (b : Box) : Meta := ⟨p.flags, p.mkids ++ b :: p.mkids'⟩
def Slot.udtaAt (p : Slot) (b : Box) : Udta := p.ukids ++ .node p.metaExt (p.metaAt b) :: p.ukids'

/-- The movie atom with `b` put into the place. -/
def Slot.moov (p : Slot) (b : Box) : Moov := p.kids ++ .udta p.udtaExt (p.udtaAt b) :: p.kids'

/-- The place is that of the last item list of the last `meta` of the last `udta`, and the `meta` has a handler. -/
def Slot.Last (p : Slot) : Prop :=
  (∀ b ∈ p.mkids', b.fc ≠ cc 'i' 'l' 's' 't') ∧ (∃ b ∈ p.mkids ++ p.mkids', b.fc = cc 'h' 'd' 'l' 'r') ∧
  (∀ k ∈ p.ukids', k.sel = none) ∧ (∀ k ∈ p.kids', ∀ ext u, k ≠ .udta ext u)

/-- An item list with a 32 bit size. -/
def shortIlst (body : Bytes) : Box := ⟨false, cc 'i' 'l' 's' 't', body⟩

/-- The file has a metadata atom with a handler, and its item list has a 32 bit size. -/
def File.InPlace (f : File) (p : Slot) (body : Bytes) : Prop := p.Last ∧ f.moov = p.moov (shortIlst body)

end Mp4.Spec
