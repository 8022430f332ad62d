import Verif.Model.BufSave
import Verif.Model.Fault
/-
Saving through a `BufReader` and a `BufWriter` that share the cursor of the file, both of whose calls may fail: Model/BufSave.lean with the
writer of Model/Fault.lean. In the latter, reading a table and the whole search are one call each; here every single call of the reader
behaves as a schedule says.
-/
namespace Mp4

/-- State of a save: the `BufReader`, the file and the `BufWriter`. The cursor of the file is `f.cur`, and `f.tick` counts the calls of the
writer only. -/
structure FCSt where
  b : BSt
  f : FSt

/-- A computation using both, with a reader that behaves as in the schedule and a writer that fails as in the other. -/
def FC (α : Type) := Sched → Nat → Faults → Env → FCSt → Out α × FCSt

/-- `m? ; f` -/
def FC.bind {α β} (m : FC α) (f : α → FC β) : FC β := fun c cap fl e x =>
  match m c cap fl e x with
  | (.ok a, x') => f a c cap fl e x'
  | (.err k, x') => (.err k, x')
  | (.panic, x') => (.panic, x')
  | (.fuel, x') => (.fuel, x')

instance : Monad FC where
  pure a := fun _ _ _ _ x => (.ok a, x)
  bind := FC.bind

/-- What only the writer does, see `W.c`. -/
def FW.c {α} (m : FW α) : FC α := fun _ _ fl e x => let r := m fl e x.f; (r.1, ⟨x.b, r.2⟩)

/-- What only the reader does, see `B.c`. -/
def B.fc {α} (m : B α) : FC α := fun c cap _ e x =>
  let r := m c cap e x.f.file { x.b with cur := x.f.cur }
  (r.1, ⟨r.2, { x.f with cur := r.2.cur }⟩)

/-- `for x in xs { f(x)? }` -/
def fcAll {α} (f : α → FC Unit) : List α → FC Unit
  | [] => pure ()
  | x :: xs => do f x; fcAll f xs

/-- `if let Some(a) = x { .. }` -/
def fcOpt {α} (f : α → FC Unit) : Option α → FC Unit
  | some a => f a
  | none => pure ()

/-- src/atom/mod.rs:466-474 and 477-485 -/
def fPatchTableBuf (width : Nat) (diff : Int) (a : AtomBounds) : FC Unit := do
  let pos ← a.contentPos.fw.c
  let (tablePos, offsets) ← (do seekStartBuf pos; parseTableBuf width a.size : B (Nat × List Nat)).fc
  (do
    fSeekStart tablePos
    fAll (fun co => do
      let n ← (addI (asI64 co) diff).fw
      fWriteAll (toBe width (asU64 n))) offsets
    fFlush : FW Unit).c

/-- src/atom/mod.rs:464-487 -/
def fPatchStblBuf (diff : Int) (stbl : StblBounds) : FC Unit := do
  fcOpt (fPatchTableBuf 4 diff) stbl.stco
  fcOpt (fPatchTableBuf 8 diff) stbl.co64

/-- The writing phase of `write_tag_to` (src/atom/mod.rs:456-525). -/
def fWritePhaseBuf (mdatPos : Nat) (moov : MoovBounds) (p : Plan) (oldLen : Nat) (moved : Bytes)
    (atoms : List AtomData) : FC Unit := do
  if mdatPos > moov.bounds.pos then fcAll (fPatchStblBuf p.lenDiff) (stblAtoms moov)
  (do
    fAll (fPatchHead p.lenDiff) p.updateAtoms.reverse
    let n ← (addI (asI64 oldLen) p.lenDiff).fw
    fSetLen (asU64 n)
    fSeekStart p.newAtomsStart
    fEmit (newAtomsWr p atoms)
    let m ← (addI (asI64 p.movedDataStart) p.lenDiff).fw
    fSeekStart (asU64 m)
    fWriteAll moved
    fFlush : FW Unit).c

/-- `write_tag_to` (src/atom/mod.rs:356-526), with failing calls of reader and writer. -/
def writeTagFBuf (c : Sched) (cap : Nat) (fl : Faults) (e : Env) (F : Bytes) (pos : Nat) (atoms : List AtomData) : Out Unit × FCSt :=
  let r := (do
    let (mdatPos, moov, p, oldLen, moved) ← (preparePhaseBuf atoms).fc
    fWritePhaseBuf mdatPos moov p oldLen moved atoms : FC Unit) c cap fl e ⟨{ cur := pos }, { file := F, cur := pos }⟩
  (r.1, ⟨r.2.b, fDrop fl e r.2.f⟩)

end Mp4
