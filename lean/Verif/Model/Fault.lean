import Verif.Model.Write
/-
Writing with failing I/O calls: `dump_tag_to` to a failing writer and `write_tag_to` on a file whose system calls fail.

The functions are those of Model/Write.lean with other primitives: every I/O call may fail, as decided by an arbitrary
schedule, possibly after part of its bytes have been transferred.
-/
namespace Mp4

/-- Which I/O calls fail. `call k` is about the `k`-th call that is issued: `none` means that it succeeds, `some n` that
an error occurs after (up to) `n` bytes have been transferred. `search`: an error occurs while the file is searched or the
data to be moved is read, that is before anything is written. -/
structure Faults where
  call : Nat → Option Nat
  search : Bool

/-- The schedule without errors. -/
def Faults.none : Faults := ⟨fun _ => .none, false⟩

/-- State while writing: as before and the number of I/O calls issued. -/
structure FSt extends WSt where
  tick : Nat := 0

/-- A computation writing to the file. -/
def FW (α : Type) := Faults → Env → FSt → Out α × FSt

/-- `m? ; f` -/
def FW.bind {α β} (m : FW α) (f : α → FW β) : FW β := fun fl e s =>
  match m fl e s with
  | (.ok a, s') => f a fl e s'
  | (.err k, s') => (.err k, s')
  | (.panic, s') => (.panic, s')
  | (.fuel, s') => (.fuel, s')

instance : Monad FW where
  pure a := fun _ _ s => (.ok a, s)
  bind := FW.bind

/-- Arithmetic. -/
def E.fw {α} (m : E α) : FW α := fun _ e s => (m e, s)

/-- `write_all` of the `File` (std): `write(2)` until everything is written or an error occurs. -/
def fSysWrite (b : Bytes) : FW Unit := fun fl _ s =>
  if b.isEmpty then (.ok (), s)
  else
    match fl.call s.tick with
    | .none => (.ok (), { toWSt := s.toWSt.sysWrite b, tick := s.tick + 1 })
    | some n => (.err .io, { toWSt := s.toWSt.sysWrite (b.take n), tick := s.tick + 1 })

/-- `BufWriter::flush_buf` (std): what has been written is removed from the buffer, also when an error occurs. -/
def fFlushBuf : FW Unit := fun fl _ s =>
  if s.buf.isEmpty then (.ok (), s)
  else
    match fl.call s.tick with
    | .none => (.ok (), { toWSt := s.toWSt.flushBuf, tick := s.tick + 1 })
    | some n =>
      (.err .io, { toWSt := { s.toWSt.sysWrite (s.buf.take n) with buf := s.buf.drop n }, tick := s.tick + 1 })

/-- The end of `BufWriter::write_all_cold` (std): the buffer has room for `b`, or `b` is written directly. -/
def fWriteDirect (b : Bytes) : FW Unit := fun fl e s =>
  if b.length ≥ e.cap then fSysWrite b fl e s
  else (.ok (), { s with buf := s.buf ++ b })

/-- `BufWriter::write_all` (std), see `wWriteAll`. -/
def fWriteAll (b : Bytes) : FW Unit := fun fl e s =>
  if b.length < e.cap - s.buf.length then (.ok (), { s with buf := s.buf ++ b })
  else if b.length > e.cap - s.buf.length then FW.bind fFlushBuf (fun _ => fWriteDirect b) fl e s
  else fWriteDirect b fl e s

/-- `BufWriter::flush` (std). -/
def fFlush : FW Unit := fFlushBuf

/-- `BufWriter::seek(SeekFrom::Start(n))` (std). `lseek(2)` only fails for positions out of range. -/
def fSeekStart (n : Nat) : FW Unit := do
  fFlushBuf
  fun _ e s => if n ≤ e.maxPos then (.ok (), { s with cur := n }) else (.err .io, s)

/-- `BufWriter::seek(SeekFrom::Current(n))` (std). -/
def fSeekCur (n : Nat) : FW Unit := do
  fFlushBuf
  fun _ e s => if s.cur + n ≤ e.maxPos then (.ok (), { s with cur := s.cur + n }) else (.err .io, s)

/-- `file.set_len(n)`. -/
def fSetLen (n : Nat) : FW Unit := fun fl e s =>
  if n ≤ e.maxPos then
    match fl.call s.tick with
    | .none =>
      (.ok (), { s with file := fileSetLen s.file n, trace := s.trace ++ [.setLen n], tick := s.tick + 1 })
    | some _ => (.err .io, { s with tick := s.tick + 1 })
  else (.err .io, s)

/-- `reader.seek(SeekFrom::Start(pos))?` followed by reading with `p`, see `wRead`. All the `read(2)` calls it takes are
one call of the schedule. -/
def fRead {α} (pos : Nat) (p : P α) : FW α := fun fl e s =>
  let s' := { s with cur := e.rcur s.trace.length, tick := s.tick + 1 }
  match fl.call s.tick with
  | .none =>
    match (do seekStart pos; p) e s.file 0 with
    | .ok (a, _) => (.ok a, s')
    | .err k => (.err k, s')
    | .panic => (.panic, s')
    | .fuel => (.fuel, s')
  | some _ => (.err .io, s')

/-- `for x in xs { f(x)? }` -/
def fAll {α} (f : α → FW Unit) : List α → FW Unit
  | [] => pure ()
  | x :: xs => do f x; fAll f xs

/-- Writing an atom through the `BufWriter`. -/
def fEmit (m : Wr Unit) : FW Unit := fun fl e s =>
  match fAll fWriteAll (m e).1 fl e s with
  | (.ok _, s') => ((m e).2, s')
  | x => x

/-- `if let Some(a) = x { .. }` -/
def fOpt {α} (f : α → FW Unit) : Option α → FW Unit
  | some a => f a
  | none => pure ()

/-- src/atom/mod.rs:466-474 and 477-485 -/
def fPatchTable (width : Nat) (diff : Int) (a : AtomBounds) : FW Unit := do
  let pos ← a.contentPos.fw
  let (tablePos, offsets) ← fRead pos (parseTable width a.size)
  fSeekStart tablePos
  fAll (fun co => do
    let n ← (addI (asI64 co) diff).fw
    fWriteAll (toBe width (asU64 n))) offsets
  fFlush

/-- src/atom/mod.rs:464-487 -/
def fPatchStbl (diff : Int) (stbl : StblBounds) : FW Unit := do
  fOpt (fPatchTable 4 diff) stbl.stco
  fOpt (fPatchTable 8 diff) stbl.co64

/-- src/atom/mod.rs:491-501 -/
def fPatchHead (diff : Int) (a : AtomBounds) : FW Unit := do
  let newLen ← (addI (asI64 a.size.len) diff).fw
  fSeekStart a.pos
  if a.size.ext then do
    fWriteAll (toBe 4 1)
    fSeekCur 4
    fWriteAll (toBe 8 (asU64 newLen))
  else
    fWriteAll (toBe 4 (asU32 newLen))

/-- The writing phase of `write_tag_to` (src/atom/mod.rs:456-525). -/
def fWritePhase (mdatPos : Nat) (moov : MoovBounds) (p : Plan) (oldLen : Nat) (moved : Bytes)
    (atoms : List AtomData) : FW Unit := do
  if mdatPos > moov.bounds.pos then fAll (fPatchStbl p.lenDiff) (stblAtoms moov)
  fAll (fPatchHead p.lenDiff) p.updateAtoms.reverse
  let n ← (addI (asI64 oldLen) p.lenDiff).fw
  fSetLen (asU64 n)
  fSeekStart p.newAtomsStart
  fEmit (newAtomsWr p atoms)
  let m ← (addI (asI64 p.movedDataStart) p.lenDiff).fw
  fSeekStart (asU64 m)
  fWriteAll moved
  fFlush

/-- `Drop for BufWriter` (std): flushes, ignoring errors. -/
def fDrop (fl : Faults) (e : Env) (s : FSt) : FSt := (fFlushBuf fl e s).2

/-- `write_tag_to` (src/atom/mod.rs:356-526). -/
def writeTagF (fl : Faults) (e : Env) (F : Bytes) (pos : Nat) (atoms : List AtomData) : Out Unit × FSt :=
  let s0 : FSt := { file := F, cur := e.rcur 0 }
  match (if fl.search then .err .io else preparePhase atoms e F pos) with
  | .ok ((mdatPos, moov, p, oldLen, moved), _) =>
    let r := fWritePhase mdatPos moov p oldLen moved atoms fl e s0
    (r.1, fDrop fl e r.2)
  | .err k => (.err k, s0)
  | .panic => (.panic, s0)
  | .fuel => (.fuel, s0)

/-- `dump_tag_to` (src/atom/mod.rs:530-547) to a writer whose calls to `write_all` may fail: the bytes that reached the
writer, and the outcome. -/
def dumpChunks (fl : Faults) (last : Out Unit) : Nat → List Bytes → Bytes × Out Unit
  | _, [] => ([], last)
  | k, c :: cs =>
    match fl.call k with
    | .none => let r := dumpChunks fl last (k + 1) cs; (c ++ r.1, r.2)
    | some n => (c.take n, .err .io)

/-- `Tag::dump_to` (src/tag/mod.rs:117-119) to a failing writer. -/
def dumpTagF (fl : Faults) (e : Env) (t : Tag) : Bytes × Out Unit :=
  let r := dumpWr t.atoms e
  dumpChunks fl r.2 0 r.1

end Mp4
