import Verif.Model.Find
/-
The writing side: serialisation of atoms, `dump_tag_to`, the buffered file writer and
`write_tag_to`.
-/
namespace Mp4

/-! ### Serialisation -/

/-- A function writing to an `impl Write` that accepts everything: the sequence of `write_all`
calls and the outcome. -/
def Wr (α : Type) := Env → List Bytes × Out α

/-- `m? ; f` while writing. -/
def Wr.bind {α β} (m : Wr α) (f : α → Wr β) : Wr β := fun e =>
  match m e with
  | (c, .ok a) => let r := f a e; (c ++ r.1, r.2)
  | (c, .err k) => (c, .err k)
  | (c, .panic) => (c, .panic)
  | (c, .fuel) => (c, .fuel)

instance : Monad Wr where
  pure a := fun _ => ([], .ok a)
  bind := Wr.bind

/-- `writer.write_all(b)?` -/
def emit (b : Bytes) : Wr Unit := fun _ => ([b], .ok ())

/-- Arithmetic while writing. -/
def E.wr {α} (m : E α) : Wr α := fun e => ([], m e)

/-- `for x in xs { f(x)? }` -/
def wrAll {α} (f : α → Wr Unit) : List α → Wr Unit
  | [] => pure ()
  | x :: xs => do f x; wrAll f xs

/-- `write_head` (src/atom/head.rs:137-147). -/
def writeHead (h : Head) : Wr Unit :=
  if h.size.ext then do
    emit (toBe 4 1)
    emit h.fourcc.bytes
    emit (toBe 8 h.size.len)
  else do
    emit (toBe 4 h.size.len)
    emit h.fourcc.bytes

/-- `write_full_head` (src/atom/head.rs:177-181). -/
def writeFullHead (version : UInt8) (flags : Bytes) : Wr Unit := do
  emit [version]
  emit flags

/-- The type codes of `Data::write_typed` (src/atom/data.rs:367-375, constants 8-36). -/
def Data.code : Data → Nat
  | .reserved _ => 0
  | .utf8 _ => 1
  | .utf16 _ => 2
  | .jpeg _ => 13
  | .png _ => 14
  | .beSigned _ => 21
  | .bmp _ => 27

/-- `Data::write_raw` (src/atom/data.rs:387-415). -/
def Data.writeRaw : Data → Wr Unit
  | .reserved v => emit v
  | .utf8 s => emit (utf8Enc s)
  | .utf16 s => wrAll (fun u => emit (toBe 2 u)) (utf16Enc s)
  | .jpeg v => emit v
  | .png v => emit v
  | .beSigned v => emit v
  | .bmp v => emit v

/-- `Data::write_typed` (src/atom/data.rs:366-384). -/
def Data.writeTyped (d : Data) : Wr Unit := do
  emit (toBe 4 d.code)
  emit [0, 0, 0, 0]
  d.writeRaw

/-- `AtomData::len` (src/atom/mod.rs:169-182). Sums of in-memory lengths do not overflow. -/
def AtomData.len (a : AtomData) : Nat :=
  let parentLen := 8
  let dataLen := (a.data.map fun d => 16 + d.len).sum
  match a.ident with
  | .fourcc _ => parentLen + dataLen
  | .freeform mean name =>
    parentLen + (12 + (utf8Enc mean).length) + (12 + (utf8Enc name).length) + dataLen

/-- `AtomData::is_empty` (src/atom/mod.rs:185-187). -/
def AtomData.isEmpty (a : AtomData) : Bool := a.data.isEmpty || a.data.all Data.isEmpty

/-- The `data` atoms of `AtomData::write` (src/atom/mod.rs:287-292). -/
def writeDataAtom (d : Data) : Wr Unit := do
  let n ← (addU32 16 (d.len % 2^32)).wr
  emit (toBe 4 n)
  emit DATA.bytes
  d.writeTyped

/-- A `mean` or `name` atom of `AtomData::write` (src/atom/mod.rs:273-277, 279-283). -/
def writeStrAtom (f : Fourcc) (s : Str) : Wr Unit := do
  let n ← (addU32 12 ((utf8Enc s).length % 2^32)).wr
  emit (toBe 4 n)
  emit f.bytes
  emit [0, 0, 0, 0]
  emit (utf8Enc s)

/-- `AtomData::write` (src/atom/mod.rs:261-295). -/
def AtomData.write (a : AtomData) : Wr Unit := do
  emit (toBe 4 a.len)
  match a.ident with
  | .fourcc f => emit f.bytes
  | .freeform mean name => do
    emit FREEFORM.bytes
    writeStrAtom MEAN mean
    writeStrAtom NAME name
  wrAll writeDataAtom a.data

/-- `Ilst::size` (src/atom/ilst.rs:63-66). -/
def ilstSize (atoms : List AtomData) : Size := Size.ofContent (atoms.map AtomData.len).sum

/-- `Ilst::write_atom` (src/atom/ilst.rs:55-61) with `write_head` (src/atom/mod.rs:129-132). -/
def writeIlst (atoms : List AtomData) : Wr Unit := do
  writeHead ⟨ilstSize atoms, ITEM_LIST⟩
  wrAll AtomData.write atoms

/-- `Hdlr::size` (src/atom/hdlr.rs:37-39). -/
def hdlrSize (h : Bytes) : Size := Size.ofContent h.length

/-- `Hdlr::write_atom` (src/atom/hdlr.rs:31-35). -/
def writeHdlr (h : Bytes) : Wr Unit := do
  writeHead ⟨hdlrSize h, HANDLER_REFERENCE⟩
  emit h

/-- `Meta::hdlr` (src/atom/meta.rs:64-74). -/
def metaHdlr : Bytes :=
  [0x00, 0x00, 0x00, 0x00,
   0x00, 0x00, 0x00, 0x00,
   0x6d, 0x64, 0x69, 0x72,
   0x61, 0x70, 0x70, 0x6c,
   0x00, 0x00, 0x00, 0x00,
   0x00, 0x00, 0x00, 0x00,
   0x00]

/-- src/atom/meta.rs:4-7 (the atom to be written). -/
structure MetaW where
  hdlr : Option Bytes
  ilst : Option (List AtomData)

/-- `len_or_zero` (src/atom/mod.rs:143-151). -/
def lenOrZero {α} (size : α → Size) : Option α → Nat
  | some a => (size a).len
  | none => 0

/-- `if let Some(a) = &x { a.write(writer)? }` -/
def wrOpt {α} (f : α → Wr Unit) : Option α → Wr Unit
  | some a => f a
  | none => pure ()

/-- `Meta::size` (src/atom/meta.rs:57-60). -/
def MetaW.size (m : MetaW) : Size :=
  Size.ofContent (lenOrZero hdlrSize m.hdlr + lenOrZero ilstSize m.ilst + 4)

/-- `Meta::write_atom` (src/atom/meta.rs:45-55). -/
def writeMeta (m : MetaW) : Wr Unit := do
  writeHead ⟨m.size, METADATA⟩
  writeFullHead 0 [0, 0, 0]
  wrOpt writeHdlr m.hdlr
  wrOpt writeIlst m.ilst

/-- `Udta::size` (src/atom/udta.rs:43-45); a `udta` to be written is its optional `meta`. -/
def udtaSize (u : Option MetaW) : Size := Size.ofContent (lenOrZero MetaW.size u)

/-- `Udta::write_atom` (src/atom/udta.rs:35-41). -/
def writeUdta (u : Option MetaW) : Wr Unit := do
  writeHead ⟨udtaSize u, USER_DATA⟩
  wrOpt writeMeta u

/-- `Moov::write_atom` with `Moov::size` (src/atom/moov.rs:39-49). -/
def writeMoov (udta : Option (Option MetaW)) : Wr Unit := do
  writeHead ⟨Size.ofContent (lenOrZero udtaSize udta), MOVIE⟩
  wrOpt writeUdta udta

/-- `Ftyp::write` with `Ftyp::len` (src/atom/ftyp.rs:18-27). -/
def writeFtyp (s : Str) : Wr Unit := do
  writeHead ⟨⟨false, (utf8Enc s).length + 8⟩, FILETYPE⟩
  emit (utf8Enc s)

/-- The `ftyp` string of a dump (src/atom/mod.rs:531). -/
def dumpFtyp : Str := "M4A \x00\x00\x02\x00isomiso2".toList

/-- `dump_tag_to` (src/atom/mod.rs:530-547). -/
def dumpWr (atoms : List AtomData) : Wr Unit := do
  writeFtyp dumpFtyp
  writeMoov (some (some ⟨some metaHdlr, some atoms⟩))

/-- `Tag::dump_to` (src/tag/mod.rs:117-119): the bytes that reached the writer, and the outcome. -/
def dumpTag (e : Env) (t : Tag) : Bytes × Out Unit :=
  let r := dumpWr t.atoms e
  (r.1.flatten, r.2)

/-! ### The file and its buffered writer -/

/-- A system call changing the file. -/
inductive Op where
  | write (off : Nat) (b : Bytes)
  | setLen (n : Nat)
deriving DecidableEq, Repr

/-- Writing `b` at `off`; a gap behind the end is filled with zeros. -/
def writeAt (F : Bytes) (off : Nat) (b : Bytes) : Bytes :=
  F.take off ++ List.replicate (off - F.length) 0 ++ b ++ F.drop (off + b.length)

/-- `File::set_len`. -/
def fileSetLen (F : Bytes) (n : Nat) : Bytes := F.take n ++ List.replicate (n - F.length) 0

/-- The effect of a system call. -/
def Op.apply (F : Bytes) : Op → Bytes
  | .write off b => writeAt F off b
  | .setLen n => fileSetLen F n

/-- State while writing: the file content, the cursor shared by all handles of the `File`, the
content of the `BufWriter`'s buffer, and the system calls so far. -/
structure WSt where
  file : Bytes
  cur : Nat
  buf : Bytes := []
  trace : List Op := []

/-- A computation writing to the file. The state is kept on errors and panics. -/
def W (α : Type) := Env → WSt → Out α × WSt

/-- `m? ; f` while writing to the file. -/
def W.bind {α β} (m : W α) (f : α → W β) : W β := fun e s =>
  match m e s with
  | (.ok a, s') => f a e s'
  | (.err k, s') => (.err k, s')
  | (.panic, s') => (.panic, s')
  | (.fuel, s') => (.fuel, s')

instance : Monad W where
  pure a := fun _ s => (.ok a, s)
  bind := W.bind

/-- Arithmetic while writing to the file. -/
def E.w {α} (m : E α) : W α := fun e s => (m e, s)

/-- `write(2)` of a non-empty buffer at the cursor. -/
def WSt.sysWrite (s : WSt) (b : Bytes) : WSt :=
  if b.isEmpty then s
  else { s with
    file := writeAt s.file s.cur b, cur := s.cur + b.length
    trace := s.trace ++ [.write s.cur b] }

/-- `BufWriter::flush_buf` (std). -/
def WSt.flushBuf (s : WSt) : WSt := { s.sysWrite s.buf with buf := [] }

/-- `BufWriter::write_all` (std): `write_all` appends if the data is smaller than the spare
capacity, otherwise `write_all_cold` flushes if it does not fit and writes directly if it is at
least as large as the whole buffer. -/
def wWriteAll (b : Bytes) : W Unit := fun e s =>
  if b.length < e.cap - s.buf.length then (.ok (), { s with buf := s.buf ++ b })
  else
    let s := if b.length > e.cap - s.buf.length then s.flushBuf else s
    if b.length ≥ e.cap then (.ok (), s.sysWrite b)
    else (.ok (), { s with buf := s.buf ++ b })

/-- `BufWriter::flush` (std; `File::flush` does nothing). -/
def wFlush : W Unit := fun _ s => (.ok (), s.flushBuf)

/-- `BufWriter::seek(SeekFrom::Start(n))` (std): flushes, then moves the cursor. -/
def wSeekStart (n : Nat) : W Unit := fun e s =>
  let s := s.flushBuf
  if n ≤ e.maxPos then (.ok (), { s with cur := n }) else (.err .io, s)

/-- `BufWriter::seek(SeekFrom::Current(n))` (std) for a non-negative `n`. -/
def wSeekCur (n : Nat) : W Unit := fun e s =>
  let s := s.flushBuf
  if s.cur + n ≤ e.maxPos then (.ok (), { s with cur := s.cur + n }) else (.err .io, s)

/-- `file.set_len(n)`, not going through the `BufWriter`. -/
def wSetLen (n : Nat) : W Unit := fun e s =>
  if n ≤ e.maxPos then
    (.ok (), { s with file := fileSetLen s.file n, trace := s.trace ++ [.setLen n] })
  else (.err .io, s)

/-- `reader.seek(SeekFrom::Start(pos))?` followed by reading with `p`. The `BufReader` discards
its buffer on this seek, so it sees the current file (not what is still in the `BufWriter`), and it
leaves the shared cursor wherever its read-ahead ended. -/
def wRead {α} (pos : Nat) (p : P α) : W α := fun e s =>
  let s' := { s with cur := e.rcur s.trace.length }
  match (do seekStart pos; p) e s.file 0 with
  | .ok (a, _) => (.ok a, s')
  | .err k => (.err k, s')
  | .panic => (.panic, s')
  | .fuel => (.fuel, s')

/-- `for x in xs { f(x)? }` -/
def wAll {α} (f : α → W Unit) : List α → W Unit
  | [] => pure ()
  | x :: xs => do f x; wAll f xs

/-- Writing an atom through the `BufWriter`. -/
def wEmit (m : Wr Unit) : W Unit := fun e s =>
  let r := m e
  match wAll wWriteAll r.1 e s with
  | (.ok _, s') => (r.2, s')
  | x => x

/-! ### `write_tag_to` -/

/-- The local variables computed before anything is written (src/atom/mod.rs:388-447).
`newUdta`, `newMeta`, `newHdlr` are what remains in these variables after the `take()`s. -/
structure Plan where
  newAtomsStart : Nat
  movedDataStart : Nat
  lenDiff : Int
  updateAtoms : List AtomBounds
  newUdta : Option (Option MetaW)
  newMeta : Option MetaW
  newHdlr : Option Bytes

/-- src/atom/mod.rs:388-447 -/
def mkPlan (moov : MoovBounds) (atoms : List AtomData) : E Plan := do
  let udta := moov.udta
  let mt := udta.bind (·.meta?)
  let hdlr := mt.bind (·.hdlr)
  let ilst := mt.bind (·.ilst)
  let newHdlr := if hdlr.isNone then some metaHdlr else none
  -- 406-410
  let (ns, ms, diff) ← (match ilst with
    | some ilst => do
      let en ← ilst.end_
      let d ← subI 0 (asI64 ilst.size.len)
      pure (ilst.pos, en, d)
    | none => pure (0, 0, 0) : E (Nat × Nat × Int))
  -- 412-423
  let (ns, ms) ← (match mt with
    | some m =>
      if ilst.isNone then do
        let en ← m.bounds.end_
        pure (en, en)
      else pure (ns, ms)
    | none => pure (ns, ms) : E (Nat × Nat))
  let updMeta := match mt with
    | some m => [m.bounds]
    | none => []
  let newMeta : Option MetaW := match mt with
    | some _ => none
    | none => some ⟨newHdlr, some atoms⟩
  let newHdlr := match mt with
    | some _ => newHdlr
    | none => none
  -- 424-437
  let (ns, ms) ← (match udta with
    | some u =>
      if mt.isNone then do
        let en ← u.bounds.end_
        pure (en, en)
      else pure (ns, ms)
    | none => do
      let en ← moov.bounds.end_
      pure (en, en) : E (Nat × Nat))
  let updUdta := match udta with
    | some u => [u.bounds]
    | none => []
  let newUdta : Option (Option MetaW) := match udta with
    | some _ => none
    | none => some newMeta
  let newMeta := match udta with
    | some _ => newMeta
    | none => none
  -- 438
  let updateAtoms := updMeta ++ updUdta ++ [moov.bounds]
  -- 440-447
  let newAtomLen := match newUdta, newMeta with
    | some a, _ => (udtaSize a).len
    | none, some a => a.size.len
    | none, none => lenOrZero hdlrSize newHdlr + (ilstSize atoms).len
  let diff ← addI diff (asI64 newAtomLen)
  pure ⟨ns, ms, diff, updateAtoms, newUdta, newMeta, newHdlr⟩

/-- Adjusting one chunk offset table (src/atom/mod.rs:466-474 and 477-485). -/
def patchTable (width : Nat) (diff : Int) (a : AtomBounds) : W Unit := do
  let pos ← a.contentPos.w
  let (tablePos, offsets) ← wRead pos (parseTable width a.size)
  wSeekStart tablePos
  wAll (fun co => do
    let n ← (addI (asI64 co) diff).w
    wWriteAll (toBe width (asU64 n))) offsets
  wFlush

/-- `if let Some(a) = x { .. }` -/
def wOpt {α} (f : α → W Unit) : Option α → W Unit
  | some a => f a
  | none => pure ()

/-- Adjusting the tables of one track (src/atom/mod.rs:464-487). -/
def patchStbl (diff : Int) (stbl : StblBounds) : W Unit := do
  wOpt (patchTable 4 diff) stbl.stco
  wOpt (patchTable 8 diff) stbl.co64

/-- The sample tables of all tracks (src/atom/mod.rs:460-462). -/
def stblAtoms (moov : MoovBounds) : List StblBounds :=
  moov.trak.filterMap fun t => (t.bind id).bind id

/-- Updating the length of an atom of the hierarchy (src/atom/mod.rs:491-501). -/
def patchHead (diff : Int) (a : AtomBounds) : W Unit := do
  let newLen ← (addI (asI64 a.size.len) diff).w
  wSeekStart a.pos
  if a.size.ext then do
    wWriteAll (toBe 4 1)
    wSeekCur 4
    wWriteAll (toBe 8 (asU64 newLen))
  else
    wWriteAll (toBe 4 (asU32 newLen))

/-- The atoms to insert (src/atom/mod.rs:509-518). -/
def newAtomsWr (p : Plan) (atoms : List AtomData) : Wr Unit :=
  match p.newUdta, p.newMeta with
  | some a, _ => writeUdta a
  | none, some a => writeMeta a
  | none, none => do
    wrOpt writeHdlr p.newHdlr
    writeIlst atoms

/-- The writing phase of `write_tag_to` (src/atom/mod.rs:456-525). -/
def writePhase (mdatPos : Nat) (moov : MoovBounds) (p : Plan) (oldLen : Nat) (moved : Bytes)
    (atoms : List AtomData) : W Unit := do
  if mdatPos > moov.bounds.pos then wAll (patchStbl p.lenDiff) (stblAtoms moov)
  wAll (patchHead p.lenDiff) p.updateAtoms.reverse
  let n ← (addI (asI64 oldLen) p.lenDiff).w
  wSetLen (asU64 n)
  wSeekStart p.newAtomsStart
  wEmit (newAtomsWr p atoms)
  let m ← (addI (asI64 p.movedDataStart) p.lenDiff).w
  wSeekStart (asU64 m)
  wWriteAll moved
  wFlush

/-- `Read::read_to_end` (std). -/
def readToEnd : P Bytes := fun _ F p => .ok (F.drop p, max p F.length)

/-- Search phase, plan and reading of the data to be moved (src/atom/mod.rs:357-454). -/
def preparePhase (atoms : List AtomData) : P (Nat × MoovBounds × Plan × Nat × Bytes) := do
  let (mdatPos, moov) ← findTop
  let p ← (mkPlan moov atoms).p
  let oldLen ← seekEnd
  let movedLen ← (subU oldLen p.movedDataStart).p
  (allocU8 movedLen).p
  seekStart p.movedDataStart
  let moved ← readToEnd
  pure (mdatPos, moov, p, oldLen, moved)

/-- `write_tag_to` (src/atom/mod.rs:356-526) on a file with content `F` whose cursor is at `pos`:
the outcome and the final state. The `BufWriter` is dropped (and thereby flushed) on every exit. -/
def writeTagTo (e : Env) (F : Bytes) (pos : Nat) (atoms : List AtomData) : Out Unit × WSt :=
  match preparePhase atoms e F pos with
  | .ok ((mdatPos, moov, p, oldLen, moved), _) =>
    let r := writePhase mdatPos moov p oldLen moved atoms e
      { file := F, cur := e.rcur 0 }
    (r.1, r.2.flushBuf)
  | .err k => (.err k, { file := F, cur := e.rcur 0 })
  | .panic => (.panic, { file := F, cur := e.rcur 0 })
  | .fuel => (.fuel, { file := F, cur := e.rcur 0 })

/-- `Tag::write_to` (src/tag/mod.rs:105-107): outcome and resulting file. -/
def writeTag (e : Env) (F : Bytes) (pos : Nat) (t : Tag) : Out Unit × Bytes :=
  let r := writeTagTo e F pos t.atoms
  (r.1, r.2.file)

end Mp4
