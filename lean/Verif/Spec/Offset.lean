import Verif.Spec.Written
/-
Specification of where media data is after writing, and what becomes of each chunk offset.
-/
namespace Mp4.Spec

/-- Chunk offsets of `co64`; compare `chunks32`. -/
def Stbl.chunks64 (s : Stbl) : List Nat := (((s.filterMap (Box.sel (cc 'c' 'o' '6' '4'))).getLast?).map (offsets 8)).getD []
def Minf.chunks64 (m : Minf) : List Nat := (((m.filterMap Kid.sel).getLast?).map Stbl.chunks64).getD []
def Mdia.chunks64 (m : Mdia) : List Nat := (((m.filterMap Kid.sel).getLast?).map Minf.chunks64).getD []
def Trak.chunks64 (m : Trak) : List Nat := (((m.filterMap Kid.sel).getLast?).map Mdia.chunks64).getD []

/-- The tracks of the movie are `early` and `late`: those in front of the last user data atom, and those behind it. If there is none, all are
early. -/
def Moov.Split (m : Moov) (early late : List Trak) : Prop :=
  (m.filterMap MoovKid.udta? = [] ∧ early = m.traks ∧ late = []) ∨
  (∃ A ext u B, m = A ++ .udta ext u :: B ∧ B.filterMap MoovKid.udta? = [] ∧ early = Moov.traks A ∧ late = Moov.traks B)

/-- Where the byte at position `o` is when everything behind the position `q` is moved by `d`. -/
def movedTo (q : Nat) (d : Int) (o : Nat) : Nat := if o < q then o else (o + d).toNat

end Mp4.Spec
