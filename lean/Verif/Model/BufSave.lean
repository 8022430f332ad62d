import Verif.Model.Buffered
import Verif.Model.Write
/-
Saving through one `BufReader` and one `BufWriter` (src/atom/mod.rs:357, 456) that share the cursor of the file. In Model/Write.lean the
cursor is left at an arbitrary place by the reader; here it is where the `BufReader` leaves it, and what the `BufReader` still has in
its buffer is kept until its next seek.
-/
namespace Mp4

/-- State of a save: the `BufReader`, the file and the `BufWriter`. The cursor of the file is `w.cur`. -/
structure CSt where
  b : BSt
  w : WSt

/-- A computation using both, with a reader that behaves as in the schedule, through a buffer of the given capacity. -/
def C (α : Type) := Sched → Nat → Env → CSt → Out α × CSt

/-- `m? ; f` -/
def C.bind {α β} (m : C α) (f : α → C β) : C β := fun c cap e x =>
  match m c cap e x with
  | (.ok a, x') => f a c cap e x'
  | (.err k, x') => (.err k, x')
  | (.panic, x') => (.panic, x')
  | (.fuel, x') => (.fuel, x')

instance : Monad C where
  pure a := fun _ _ _ x => (.ok a, x)
  bind := C.bind

/-- What only the writer does: the `BufReader` does not notice. -/
def W.c {α} (m : W α) : C α := fun _ _ e x => let r := m e x.w; (r.1, ⟨x.b, r.2⟩)

/-- What only the reader does: it finds the cursor where the writer left it, sees the file without what is still in the `BufWriter`, and
leaves the cursor behind what it has read ahead. -/
def B.c {α} (m : B α) : C α := fun c cap e x =>
  let r := m c cap e x.w.file { x.b with cur := x.w.cur }
  (r.1, ⟨r.2, { x.w with cur := r.2.cur }⟩)

/-- `for x in xs { f(x)? }` -/
def cAll {α} (f : α → C Unit) : List α → C Unit
  | [] => pure ()
  | x :: xs => do f x; cAll f xs

/-- `if let Some(a) = x { .. }` -/
def cOpt {α} (f : α → C Unit) : Option α → C Unit
  | some a => f a
  | none => pure ()

/-- Adjusting one chunk offset table (src/atom/mod.rs:466-474 and 477-485). -/
def patchTableBuf (width : Nat) (diff : Int) (a : AtomBounds) : C Unit := do
  let pos ← a.contentPos.w.c
  let (tablePos, offsets) ← (do seekStartBuf pos; parseTableBuf width a.size : B (Nat × List Nat)).c
  (do
    wSeekStart tablePos
    wAll (fun co => do
      let n ← (addI (asI64 co) diff).w
      wWriteAll (toBe width (asU64 n))) offsets
    wFlush : W Unit).c

/-- Adjusting the tables of one track (src/atom/mod.rs:464-487). -/
def patchStblBuf (diff : Int) (stbl : StblBounds) : C Unit := do
  cOpt (patchTableBuf 4 diff) stbl.stco
  cOpt (patchTableBuf 8 diff) stbl.co64

/-- The writing phase of `write_tag_to` (src/atom/mod.rs:456-525); the reader is not used any more behind the tables. -/
def writePhaseBuf (mdatPos : Nat) (moov : MoovBounds) (p : Plan) (oldLen : Nat) (moved : Bytes)
    (atoms : List AtomData) : C Unit := do
  if mdatPos > moov.bounds.pos then cAll (patchStblBuf p.lenDiff) (stblAtoms moov)
  (do
    wAll (patchHead p.lenDiff) p.updateAtoms.reverse
    let n ← (addI (asI64 oldLen) p.lenDiff).w
    wSetLen (asU64 n)
    wSeekStart p.newAtomsStart
    wEmit (newAtomsWr p atoms)
    let m ← (addI (asI64 p.movedDataStart) p.lenDiff).w
    wSeekStart (asU64 m)
    wWriteAll moved
    wFlush : W Unit).c

/-- `write_tag_to` (src/atom/mod.rs:356-526) on a file with content `F` whose cursor is at `pos`, with a `BufReader` of capacity `cap` (the
capacity of the `BufWriter` is that of the environment; both are 8 KiB in std). The `BufWriter` is dropped, and thereby flushed, on every
exit. -/
def writeTagToBuf (c : Sched) (cap : Nat) (e : Env) (F : Bytes) (pos : Nat) (atoms : List AtomData) : Out Unit × CSt :=
  let r := (do
    let (mdatPos, moov, p, oldLen, moved) ← (preparePhaseBuf atoms).c
    writePhaseBuf mdatPos moov p oldLen moved atoms : C Unit) c cap e ⟨{ cur := pos }, { file := F, cur := pos }⟩
  (r.1, ⟨r.2.b, r.2.w.flushBuf⟩)

/-- `Tag::write_to_path` (src/tag/mod.rs:111-114) through the `BufReader`. -/
def writeToPathBuf (c : Sched) (cap : Nat) (e : Env) (fs : Fs) (p : String) (t : Tag) : Out Unit × Fs :=
  match fs.node p with
  | some n =>
    if fs.readable n && fs.writable n then
      let r := writeTagToBuf c cap e (fs.data n) 0 t.atoms
      (r.1, fs.store n r.2.w.file)
    else (.err .io, fs)
  | none => (.err .io, fs)

end Mp4
