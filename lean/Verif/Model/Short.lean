import Verif.Model.BufFault
import Verif.Model.Path
/-
Saving through a `BufReader` and a `BufWriter` on a file that may, in each call of `write(2)`, write only part of what it is given, be
interrupted, or fail: Model/BufFault.lean with std's loops around `write`.
-/
namespace Mp4

/-- A computation writing to a file that behaves as in the schedule. -/
def SW (α : Type) := Sched → Env → FSt → Out α × FSt

/-- `m? ; f` -/
def SW.bind {α β} (m : SW α) (f : α → SW β) : SW β := fun ws e s =>
  match m ws e s with
  | (.ok a, s') => f a ws e s'
  | (.err k, s') => (.err k, s')
  | (.panic, s') => (.panic, s')
  | (.fuel, s') => (.fuel, s')

instance : Monad SW where
  pure a := fun _ _ s => (.ok a, s)
  bind := SW.bind

/-- Arithmetic. -/
def E.sw {α} (m : E α) : SW α := fun _ e s => (m e, s)

/-- The loop of `Write::write_all` and of `BufWriter::flush_buf` (std): what has been written is dropped, an interrupted call is repeated.
A call that writes nothing is an error (`WriteZero`) like any other. Returns what has not been written. The first argument bounds the
iterations. -/
def sPut (ws : Sched) : Nat → Bytes → FSt → Out Unit × Bytes × FSt
  | _, [], s => (.ok (), [], s)
  | 0, x :: b, s => (.fuel, x :: b, s)
  | f+1, x :: b, s =>
    match ws s.tick with
    | .give n => sPut ws f ((x :: b).drop (n + 1)) { toWSt := s.toWSt.sysWrite ((x :: b).take (n + 1)), tick := s.tick + 1 }
    | .intr => sPut ws f (x :: b) { s with tick := s.tick + 1 }
    | .err => (.err .io, x :: b, { s with tick := s.tick + 1 })

/-- `write_all` of the `File` (std). Besides one iteration per byte there are `Env.fuel` for interruptions. -/
def sSysWrite (b : Bytes) : SW Unit := fun ws e s =>
  let r := sPut ws (b.length + e.fuel) b s
  (r.1, r.2.2)

/-- `BufWriter::flush_buf` (std): what has been written is removed from the buffer, also when an error occurs. -/
def sFlushBuf : SW Unit := fun ws e s =>
  let r := sPut ws (s.buf.length + e.fuel) s.buf s
  (r.1, { r.2.2 with buf := r.2.1 })

/-- The end of `BufWriter::write_all_cold` (std), see `fWriteDirect`. -/
def sWriteDirect (b : Bytes) : SW Unit := fun ws e s =>
  if b.length ≥ e.cap then sSysWrite b ws e s
  else (.ok (), { s with buf := s.buf ++ b })

/-- `BufWriter::write_all` (std), see `wWriteAll`. -/
def sWriteAll (b : Bytes) : SW Unit := fun ws e s =>
  if b.length < e.cap - s.buf.length then (.ok (), { s with buf := s.buf ++ b })
  else if b.length > e.cap - s.buf.length then SW.bind sFlushBuf (fun _ => sWriteDirect b) ws e s
  else sWriteDirect b ws e s

/-- `BufWriter::flush` (std). -/
def sFlush : SW Unit := sFlushBuf

/-- `BufWriter::seek(SeekFrom::Start(n))` (std), see `fSeekStart`. -/
def sSeekStart (n : Nat) : SW Unit := do
  sFlushBuf
  fun _ e s => if n ≤ e.maxPos then (.ok (), { s with cur := n }) else (.err .io, s)

/-- `BufWriter::seek(SeekFrom::Current(n))` (std). -/
def sSeekCur (n : Nat) : SW Unit := do
  sFlushBuf
  fun _ e s => if s.cur + n ≤ e.maxPos then (.ok (), { s with cur := s.cur + n }) else (.err .io, s)

/-- `ftruncate(2)` is repeated when it is interrupted (`cvt_r` in std). -/
def sTruncate (ws : Sched) (n : Nat) : Nat → FSt → Out Unit × FSt
  | 0, s => (.fuel, s)
  | f+1, s =>
    match ws s.tick with
    | .give _ => (.ok (), { s with file := fileSetLen s.file n, trace := s.trace ++ [.setLen n], tick := s.tick + 1 })
    | .intr => sTruncate ws n f { s with tick := s.tick + 1 }
    | .err => (.err .io, { s with tick := s.tick + 1 })

/-- `file.set_len(n)`. -/
def sSetLen (n : Nat) : SW Unit := fun ws e s =>
  if n ≤ e.maxPos then sTruncate ws n (e.fuel + 1) s else (.err .io, s)

/-- `for x in xs { f(x)? }` -/
def sAll {α} (f : α → SW Unit) : List α → SW Unit
  | [] => pure ()
  | x :: xs => do f x; sAll f xs

/-- Writing an atom through the `BufWriter`. -/
def sEmit (m : Wr Unit) : SW Unit := fun ws e s =>
  match sAll sWriteAll (m e).1 ws e s with
  | (.ok _, s') => ((m e).2, s')
  | x => x

/-- src/atom/mod.rs:491-501 -/
def sPatchHead (diff : Int) (a : AtomBounds) : SW Unit := do
  let newLen ← (addI (asI64 a.size.len) diff).sw
  sSeekStart a.pos
  if a.size.ext then do
    sWriteAll (toBe 4 1)
    sSeekCur 4
    sWriteAll (toBe 8 (asU64 newLen))
  else
    sWriteAll (toBe 4 (asU32 newLen))

/-- A computation using reader and writer, which behave as in the two schedules. -/
def SC (α : Type) := Sched → Nat → Sched → Env → FCSt → Out α × FCSt

/-- `m? ; f` -/
def SC.bind {α β} (m : SC α) (f : α → SC β) : SC β := fun c cap ws e x =>
  match m c cap ws e x with
  | (.ok a, x') => f a c cap ws e x'
  | (.err k, x') => (.err k, x')
  | (.panic, x') => (.panic, x')
  | (.fuel, x') => (.fuel, x')

instance : Monad SC where
  pure a := fun _ _ _ _ x => (.ok a, x)
  bind := SC.bind

/-- What only the writer does, see `W.c`. -/
def SW.c {α} (m : SW α) : SC α := fun _ _ ws e x => let r := m ws e x.f; (r.1, ⟨x.b, r.2⟩)

/-- What only the reader does, see `B.c`. -/
def B.sc {α} (m : B α) : SC α := fun c cap _ e x =>
  let r := m c cap e x.f.file { x.b with cur := x.f.cur }
  (r.1, ⟨r.2, { x.f with cur := r.2.cur }⟩)

/-- `for x in xs { f(x)? }` -/
def scAll {α} (f : α → SC Unit) : List α → SC Unit
  | [] => pure ()
  | x :: xs => do f x; scAll f xs

/-- `if let Some(a) = x { .. }` -/
def scOpt {α} (f : α → SC Unit) : Option α → SC Unit
  | some a => f a
  | none => pure ()

/-- src/atom/mod.rs:466-474 and 477-485 -/
def sPatchTable (width : Nat) (diff : Int) (a : AtomBounds) : SC Unit := do
  let pos ← a.contentPos.sw.c
  let (tablePos, offsets) ← (do seekStartBuf pos; parseTableBuf width a.size : B (Nat × List Nat)).sc
  (do
    sSeekStart tablePos
    sAll (fun co => do
      let n ← (addI (asI64 co) diff).sw
      sWriteAll (toBe width (asU64 n))) offsets
    sFlush : SW Unit).c

/-- src/atom/mod.rs:464-487 -/
def sPatchStbl (diff : Int) (stbl : StblBounds) : SC Unit := do
  scOpt (sPatchTable 4 diff) stbl.stco
  scOpt (sPatchTable 8 diff) stbl.co64

/-- The writing phase of `write_tag_to` (src/atom/mod.rs:456-525). -/
def sWritePhase (mdatPos : Nat) (moov : MoovBounds) (p : Plan) (oldLen : Nat) (moved : Bytes)
    (atoms : List AtomData) : SC Unit := do
  if mdatPos > moov.bounds.pos then scAll (sPatchStbl p.lenDiff) (stblAtoms moov)
  (do
    sAll (sPatchHead p.lenDiff) p.updateAtoms.reverse
    let n ← (addI (asI64 oldLen) p.lenDiff).sw
    sSetLen (asU64 n)
    sSeekStart p.newAtomsStart
    sEmit (newAtomsWr p atoms)
    let m ← (addI (asI64 p.movedDataStart) p.lenDiff).sw
    sSeekStart (asU64 m)
    sWriteAll moved
    sFlush : SW Unit).c

/-- `Drop for BufWriter` (std): flushes, ignoring errors. -/
def sDrop (ws : Sched) (e : Env) (s : FSt) : FSt := (sFlushBuf ws e s).2

/-- `write_tag_to` (src/atom/mod.rs:356-526), reading and writing a file that behaves as in the schedules `c` and `ws`. -/
def writeTagShort (c : Sched) (cap : Nat) (ws : Sched) (e : Env) (F : Bytes) (pos : Nat) (atoms : List AtomData) : Out Unit × FCSt :=
  let r := (do
    let (mdatPos, moov, p, oldLen, moved) ← (preparePhaseBuf atoms).sc
    sWritePhase mdatPos moov p oldLen moved atoms : SC Unit) c cap ws e ⟨{ cur := pos }, { file := F, cur := pos }⟩
  (r.1, ⟨r.2.b, sDrop ws e r.2.f⟩)

/-- `Tag::write_to_path` (src/tag/mod.rs:111-114). -/
def writeToPathShort (c : Sched) (cap : Nat) (ws : Sched) (e : Env) (fs : Fs) (p : String) (t : Tag) : Out Unit × Fs :=
  match fs.node p with
  | some n =>
    if fs.readable n && fs.writable n then
      let r := writeTagShort c cap ws e (fs.data n) 0 t.atoms
      (r.1, fs.store n r.2.f.file)
    else (.err .io, fs)
  | none => (.err .io, fs)

/-- `Tag::dump_to` (src/tag/mod.rs:117-119) and `dump_tag_to` (src/atom/mod.rs:530-547), whose writer behaves as in the schedule. What has
reached the writer is `file`. -/
def dumpTagShort (ws : Sched) (e : Env) (t : Tag) : Out Unit × FSt :=
  let r := dumpWr t.atoms e
  match sAll sSysWrite r.1 ws e { file := [], cur := 0 } with
  | (.ok _, s) => (r.2, s)
  | x => x

end Mp4
