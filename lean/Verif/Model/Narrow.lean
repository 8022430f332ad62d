import Verif.Model.Write
/-
Builds in which `usize` has 32 bits. The library converts lengths with `as usize` in five places: the buffers of `read_u8_vec` and
`read_utf16` (src/atom/data.rs:468, 482), the capacities of the chunk offset tables (src/atom/stco.rs:31, src/atom/co64.rs:31) and of the
data that is moved (src/atom/mod.rs:452). The conversion drops the upper bits, and a vector of more than `isize::MAX = 2^31 - 1` bytes is a
capacity overflow panic.

The functions are those of the other files with these primitives; functions that do not read vectors are used as they are.

Simplification: as with 64 bits, smaller allocations succeed.
-/
namespace Mp4

/-- `len as usize` -/
def usize32 (len : Nat) : Nat := len % 2^32

/-- A vector of `n` bytes, `n : usize`; see `allocU8`. -/
def alloc32 (n : Nat) : E Unit := fun _ => if 2^31 ≤ n then .panic else .ok ()

/-- `read_u8_vec` (src/atom/data.rs:467-471). -/
def readU8Vec32 (len : Nat) : P Bytes := do
  (alloc32 (usize32 len)).p
  readExact (usize32 len)

/-- `read_utf8` (src/atom/data.rs:474-478). -/
def readUtf832 (len : Nat) : P Str := do
  let b ← readU8Vec32 len
  match utf8Dec b with
  | some s => pure s
  | none => fail .utf8StringDecoding

/-- `read_utf16` (src/atom/data.rs:481-490). -/
def readUtf1632 (len : Nat) : P Str := do
  (alloc32 (usize32 len)).p
  let b ← readExact (usize32 len)
  match utf16Dec (units16 b) with
  | some s => pure s
  | none => fail .utf16StringDecoding

/-- `Data::parse` (src/atom/data.rs:418-434, codes 8-36). -/
def Data.parse32 (datatype len : Nat) : P Data :=
  match datatype with
  | 0 => do let v ← readU8Vec32 len; pure (.reserved v)
  | 1 => do let s ← readUtf832 len; pure (.utf8 s)
  | 2 => do let s ← readUtf1632 len; pure (.utf16 s)
  | 13 => do let v ← readU8Vec32 len; pure (.jpeg v)
  | 14 => do let v ← readU8Vec32 len; pure (.png v)
  | 21 => do let v ← readU8Vec32 len; pure (.beSigned v)
  | 27 => do let v ← readU8Vec32 len; pure (.bmp v)
  | t => fail (.unknownDataType t)

/-- `Ftyp::parse` (src/atom/ftyp.rs:7-16). -/
def parseFtyp32 : P Str := do
  let head ← parseHead
  if head.fourcc ≠ FILETYPE then fail .noTag
  else do
    let n ← head.size.contentLen.p
    readUtf832 n

/-- The `match` in the loop of `AtomData::parse` (src/atom/mod.rs:198-240). -/
def itemHandle32 (s : ItemSt) (h : Head) : P ItemSt :=
  if h.fourcc = DATA then do
    let (version, flags) ← parseFullHead
    if version ≠ 0 then fail (.unknownVersion version)
    else do
      let datatype := beNat flags
      seekCur 4
      let n ← h.size.contentLen.p
      let n ← (subU n 8).p
      let d ← Data.parse32 datatype n
      pure { s with data := s.data ++ [d] }
  else if h.fourcc = MEAN then do
    let (version, _) ← parseFullHead
    if version ≠ 0 then fail (.unknownVersion version)
    else do
      let n ← h.size.contentLen.p
      let n ← (subU n 4).p
      let m ← readUtf832 n
      pure { s with mean := some m }
  else if h.fourcc = NAME then do
    let (version, _) ← parseFullHead
    if version ≠ 0 then fail (.unknownVersion version)
    else do
      let n ← h.size.contentLen.p
      let n ← (subU n 4).p
      let m ← readUtf832 n
      pure { s with name := some m }
  else do
    skipContent h
    pure s

/-- `AtomData::parse` (src/atom/mod.rs:189-258). -/
def parseItem32 (parent : Fourcc) (len : Nat) : P AtomData := do
  let s ← loop (pure len) itemHandle32 {} 0
  if s.data.isEmpty then fail (.atomNotFound DATA)
  else pure ⟨itemIdent parent s.mean s.name, s.data⟩

/-- `Ilst::parse_atom` (src/atom/ilst.rs:24-52). -/
def parseIlst32 (size : Size) : P (List AtomData) :=
  loop size.contentLen (fun s h =>
    if h.fourcc = FREE then do skipContent h; pure s
    else do
      let n ← h.size.contentLen.p
      let a ← parseItem32 h.fourcc n
      pure (mergeItem s a)) [] 0

/-- `Meta::parse_atom` (src/atom/meta.rs:13-42). -/
def parseMeta32 (size : Size) : P (Option (List AtomData)) := do
  let (version, _) ← parseFullHead
  if version ≠ 0 then fail (.unknownVersion version)
  else
    loop size.contentLen (fun s h =>
      if h.fourcc = ITEM_LIST then do let a ← parseIlst32 h.size; pure (some a)
      else do skipContent h; pure s) none 4

/-- `Udta::parse_atom` (src/atom/udta.rs:12-32). -/
def parseUdta32 (size : Size) : P (Option (Option (List AtomData))) :=
  loop size.contentLen (fun s h =>
    if h.fourcc = METADATA then do let a ← parseMeta32 h.size; pure (some a)
    else do skipContent h; pure s) none 0

/-- The `match` in the loop of `Moov::parse_atom` (src/atom/moov.rs:22-29). -/
def moovHandle32 (s : Moov) (h : Head) : P Moov :=
  if h.fourcc = MOVIE_HEADER then do let a ← parseMvhd h.size; pure { s with mvhd := some a }
  else if h.fourcc = TRACK then do let a ← parseTrak h.size; pure { s with trak := s.trak ++ [a] }
  else if h.fourcc = USER_DATA then do let a ← parseUdta32 h.size; pure { s with udta := some a }
  else do skipContent h; pure s

/-- `Moov::parse_atom` (src/atom/moov.rs:14-36). -/
def parseMoov32 (size : Size) : P Moov := loop size.contentLen moovHandle32 {} 0

/-- The loop of `read_tag_from` (src/atom/mod.rs:303-324). -/
def topWalk32 (len : Nat) : Nat → Nat → P Moov
  | 0, _ => outOfFuel
  | f+1, parsed =>
    if parsed ≥ len then fail (.atomNotFound MOVIE)
    else do
      let head ← parseHead
      if head.fourcc = MOVIE then parseMoov32 head.size
      else do
        skipContent head
        let parsed' ← (addU parsed head.size.len).p
        topWalk32 len f parsed'

/-- `read_tag_from` (src/atom/mod.rs:299-353). -/
def readTagP32 : P Tag := do
  let ftyp ← parseFtyp32
  let len ← remainingStreamLen
  let f ← getFuel
  let moov ← topWalk32 len f 0
  pure (mkTag ftyp moov)

/-- `Tag::read_from` (src/tag/mod.rs:93-95). -/
def readTag32 (e : Env) (F : Bytes) (pos : Nat) : Out Tag := (readTagP32 e F pos).val

/-- `Stco::parse_atom` (src/atom/stco.rs:16-45) and `Co64::parse_atom` (src/atom/co64.rs:16-45). -/
def parseTable32 (width : Nat) (size : Size) : P (Nat × List Nat) := do
  let (version, _) ← parseFullHead
  if version = 0 then do
    let entries ← readU32
    let content ← size.contentLen.p
    if 8 + width * entries ≠ content then fail .parsing
    else do
      let tablePos ← tellP
      (alloc32 (width * entries)).p
      let offsets ← readTable width entries
      pure (tablePos, offsets)
  else fail (.unknownVersion version)

/-- Adjusting one chunk offset table (src/atom/mod.rs:466-474 and 477-485). -/
def patchTable32 (width : Nat) (diff : Int) (a : AtomBounds) : W Unit := do
  let pos ← a.contentPos.w
  let (tablePos, offsets) ← wRead pos (parseTable32 width a.size)
  wSeekStart tablePos
  wAll (fun co => do
    let n ← (addI (asI64 co) diff).w
    wWriteAll (toBe width (asU64 n))) offsets
  wFlush

/-- Adjusting the tables of one track (src/atom/mod.rs:464-487). -/
def patchStbl32 (diff : Int) (stbl : StblBounds) : W Unit := do
  wOpt (patchTable32 4 diff) stbl.stco
  wOpt (patchTable32 8 diff) stbl.co64

/-- src/atom/mod.rs:456-526 -/
def writePhase32 (mdatPos : Nat) (moov : MoovBounds) (p : Plan) (oldLen : Nat) (moved : Bytes)
    (atoms : List AtomData) : W Unit := do
  if mdatPos > moov.bounds.pos then wAll (patchStbl32 p.lenDiff) (stblAtoms moov)
  wAll (patchHead p.lenDiff) p.updateAtoms.reverse
  let n ← (addI (asI64 oldLen) p.lenDiff).w
  wSetLen (asU64 n)
  wSeekStart p.newAtomsStart
  wEmit (newAtomsWr p atoms)
  let m ← (addI (asI64 p.movedDataStart) p.lenDiff).w
  wSeekStart (asU64 m)
  wWriteAll moved
  wFlush

/-- `Read::read_to_end` (std): a vector that would become too large is an error. -/
def readToEnd32 : P Bytes := fun e F p => if 2^31 ≤ F.length - p then .err .io else readToEnd e F p

/-- Search phase, plan and reading of the data to be moved (src/atom/mod.rs:357-454). -/
def preparePhase32 (atoms : List AtomData) : P (Nat × MoovBounds × Plan × Nat × Bytes) := do
  let (mdatPos, moov) ← findTop
  let p ← (mkPlan moov atoms).p
  let oldLen ← seekEnd
  let movedLen ← (subU oldLen p.movedDataStart).p
  (alloc32 (usize32 movedLen)).p
  seekStart p.movedDataStart
  let moved ← readToEnd32
  pure (mdatPos, moov, p, oldLen, moved)

/-- `write_tag_to` (src/atom/mod.rs:356-526), see `writeTagTo`. -/
def writeTagTo32 (e : Env) (F : Bytes) (pos : Nat) (atoms : List AtomData) : Out Unit × WSt :=
  match preparePhase32 atoms e F pos with
  | .ok ((mdatPos, moov, p, oldLen, moved), _) =>
    let r := writePhase32 mdatPos moov p oldLen moved atoms e
      { file := F, cur := e.rcur 0 }
    (r.1, r.2.flushBuf)
  | .err k => (.err k, { file := F, cur := e.rcur 0 })
  | .panic => (.panic, { file := F, cur := e.rcur 0 })
  | .fuel => (.fuel, { file := F, cur := e.rcur 0 })

/-- `Tag::write_to` (src/tag/mod.rs:105-107): outcome and resulting file. -/
def writeTag32 (e : Env) (F : Bytes) (pos : Nat) (t : Tag) : Out Unit × Bytes :=
  let r := writeTagTo32 e F pos t.atoms
  (r.1, r.2.file)

end Mp4
