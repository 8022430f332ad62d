import Verif.Spec.Update
/-
Files with more than one movie atom. (ISO/IEC 14496-12 demands exactly one.)
-/
namespace Mp4.Spec

/-- A file with a movie atom, and behind it at least one more. -/
structure Movies where
  /-- From the start to the atom in front of the second movie atom. -/
  file : File
  /-- Other atoms and movie atoms in front of the last movie atom. -/
  mid : List (Kid Moov)
  lastExt : Bool
  last : Moov
  post : List Box

/-- All atoms in front of the last movie atom, apart from `ftyp`. -/
def Movies.front (g : Movies) : List Box :=
  g.file.pre ++ g.file.moovBox :: g.file.post ++ g.mid.map (Kid.box (cc 'm' 'o' 'o' 'v') Moov.ser)

/-- The file, as seen if the movie atoms are taken for other atoms except for the last one. -/
def Movies.byLast (g : Movies) : File :=
  { g.file with pre := g.front, moovExt := g.lastExt, moov := g.last, post := g.post }

def Movies.ser (g : Movies) : Bytes :=
  g.file.ser ++ serL (Kid.box (cc 'm' 'o' 'o' 'v') Moov.ser) g.mid ++ g.byLast.moovBox.ser ++ serL id g.post

/-- All atoms are well-formed. -/
def Movies.WF (g : Movies) : Prop :=
  g.file.WF ∧
  (∀ k ∈ g.mid, (k.box (cc 'm' 'o' 'o' 'v') Moov.ser).Fits ∧
    match k with
    | .node _ m => m.WF
    | .raw b => b.fc ≠ cc 'm' 'o' 'o' 'v') ∧
  g.byLast.moovBox.Fits ∧ g.last.WF ∧
  ∀ b ∈ g.post, b.Fits ∧ b.fc ≠ cc 'm' 'o' 'o' 'v'

/-- Writing replaces the items of the last movie atom, and adjusts chunk offsets only there. -/
def Movies.put (g : Movies) (atoms : List AtomData) : Movies :=
  { g with last := (g.byLast.put atoms).moov }

end Mp4.Spec
