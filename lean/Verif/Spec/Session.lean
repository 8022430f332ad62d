import Verif.Model.Path
import Verif.Spec.Update
import Verif.Spec.TagMap
/-
What a program that loads, edits, saves and dumps tags is expected to do: files are records of a file
type, audio information and items; saving replaces the items and nothing else.
-/
namespace Mp4.Spec
open Mp4

/-- The files as a user sees them: names, and for every file of interest its tag. The tree the file
consisted of when it was last created or first seen says what can be stored in it. -/
structure Store where
  node : String → Option Nat
  next : Nat
  files : Nat → Option (File × Tag)
  tag : Tag

/-- What may be stored: `save` in an existing file, `dump` as a file of its own. -/
structure Limits where
  save : File → List AtomData → Prop
  dump : List AtomData → Prop

/-- The path at which a step may change a file. -/
def target : Cmd → Option String
  | .load _ | .edit _ => none
  | .save p | .dump p => some p

/-- A file gets a tree and a tag. -/
def Store.put (s : Store) (n : Nat) (f : File) (t : Tag) : Store :=
  { s with files := fun m => if m = n then some (f, t) else s.files m }

/-- A path gets a new file. -/
def Store.link (s : Store) (p : String) : Store :=
  { s with node := fun q => if q = p then some s.next else s.node q, next := s.next + 1 }

/-- The tag of a dump. -/
def dumped (atoms : List AtomData) : Tag := { ftyp := (dumpFile atoms).ftyp, info := {}, atoms := atoms }

/-- The expected effect of a step, for steps that are expected to succeed. -/
inductive Step (fs : Fs) (L : Limits) : Store → Cmd → Store → Prop where
  | load {s p n f t} : s.node p = some n → fs.readable n = true → s.files n = some (f, t) →
      Step fs L s (.load p) { s with tag := t }
  | edit {s op} : Step fs L s (.edit op) { s with tag := op.run s.tag }
  | save {s p n f t} : s.node p = some n → fs.readable n = true → fs.writable n = true →
      s.files n = some (f, t) → L.save f s.tag.atoms →
      Step fs L s (.save p) (s.put n f { ftyp := t.ftyp, info := t.info, atoms := s.tag.atoms })
  | replace {s p n} : s.node p = some n → fs.writable n = true →
      L.dump s.tag.atoms →
      Step fs L s (.dump p) (s.put n (dumpFile s.tag.atoms) (dumped s.tag.atoms))
  | create {s p} : s.node p = none → fs.creatable p = true →
      L.dump s.tag.atoms →
      Step fs L s (.dump p) ((s.put s.next (dumpFile s.tag.atoms) (dumped s.tag.atoms)).link p)

/-- The expected effect of a program. -/
inductive Steps (fs : Fs) (L : Limits) : Store → List Cmd → Store → Prop where
  | nil {s} : Steps fs L s [] s
  | cons {s c s' r s''} : Step fs L s c s' → Steps fs L s' r s'' → Steps fs L s (c :: r) s''

end Mp4.Spec
