import Verif.Model.Write
import Verif.Model.Ops
/-
The variants of reading, writing and dumping that take a path (src/tag/mod.rs:97-127), and programs that
use them together with the tag API.
-/
namespace Mp4

/-- A file system as far as the library can see it: what paths resolve to (links followed), contents,
permissions, at which paths files can be created, and the number of the next file that is created. -/
structure Fs where
  node : String → Option Nat
  data : Nat → Bytes
  readable : Nat → Bool
  writable : Nat → Bool
  creatable : String → Bool
  next : Nat

/-- Replace the content of a file. -/
def Fs.store (fs : Fs) (n : Nat) (b : Bytes) : Fs := { fs with data := fun m => if m = n then b else fs.data m }

/-- `Tag::read_from_path` (src/tag/mod.rs:98-101): `File::open`, then reading from the start. The
`BufReader` is left out because it does not change what is read (Model/Buffered.lean, C96). -/
def readFromPath (e : Env) (fs : Fs) (p : String) : Out Tag :=
  match fs.node p with
  | some n => if fs.readable n then readTag e (fs.data n) 0 else .err .io
  | none => .err .io

/-- `Tag::write_to_path` (src/tag/mod.rs:111-114): the file is opened for reading and writing, neither
created nor truncated. -/
def writeToPath (e : Env) (fs : Fs) (p : String) (t : Tag) : Out Unit × Fs :=
  match fs.node p with
  | some n =>
    if fs.readable n && fs.writable n then
      let r := writeTag e (fs.data n) 0 t
      (r.1, fs.store n r.2)
    else (.err .io, fs)
  | none => (.err .io, fs)

/-- `Tag::dump_to_path` (src/tag/mod.rs:122-125): `File::create` truncates an existing file or creates
one. -/
def dumpToPath (e : Env) (fs : Fs) (p : String) (t : Tag) : Out Unit × Fs :=
  match fs.node p with
  | some n =>
    if fs.writable n then
      let r := dumpTag e t
      (r.2, fs.store n r.1)
    else (.err .io, fs)
  | none =>
    if fs.creatable p then
      let r := dumpTag e t
      (r.2, { fs.store fs.next r.1 with node := fun q => if q = p then some fs.next else fs.node q, next := fs.next + 1 })
    else (.err .io, fs)

/-- A step of a program that works on one tag. -/
inductive Cmd where
  /-- `tag = Tag::read_from_path(p)?` -/
  | load (p : String)
  /-- a mutating method of the tag -/
  | edit (op : TagOp)
  /-- `tag.write_to_path(p)?` -/
  | save (p : String)
  /-- `tag.dump_to_path(p)?` -/
  | dump (p : String)

/-- The state of such a program. -/
structure Session where
  fs : Fs
  tag : Tag

/-- One step. -/
def Session.step (e : Env) (c : Cmd) (s : Session) : Out Unit × Session :=
  match c with
  | .load p =>
    match readFromPath e s.fs p with
    | .ok t => (.ok (), { s with tag := t })
    | .err k => (.err k, s)
    | .panic => (.panic, s)
    | .fuel => (.fuel, s)
  | .edit op => (.ok (), { s with tag := op.run s.tag })
  | .save p => let r := writeToPath e s.fs p s.tag; (r.1, { s with fs := r.2 })
  | .dump p => let r := dumpToPath e s.fs p s.tag; (r.1, { s with fs := r.2 })

/-- All steps, stopping at the first one that does not succeed. Every step has its own environment. -/
def Session.run : List (Env × Cmd) → Session → Out Unit × Session
  | [], s => (.ok (), s)
  | (e, c) :: r, s =>
    match s.step e c with
    | (.ok _, s) => Session.run r s
    | (.err k, s) => (.err k, s)
    | (.panic, s) => (.panic, s)
    | (.fuel, s) => (.fuel, s)

end Mp4
