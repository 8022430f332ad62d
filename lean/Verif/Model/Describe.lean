import Verif.Model.Fault
import Verif.Model.Display
/-
Errors with their descriptions (src/error.rs).

The functions are those of Model/Data.lean, Model/Head.lean, Model/Read.lean, Model/Find.lean, Model/Write.lean and
Model/Fault.lean, with the text each error carries, and with the wrappers `ParseAtom::parse`, `FindAtom::find` and
`WriteAtom::write` that put the name of the atom in front of it.
-/
namespace Mp4

/-- How a call can end, see `Out`; an error has a kind and a description (src/error.rs:42-47). -/
inductive DOut (α : Type) where
  | ok (a : α)
  | err (k : ErrKind) (d : Str)
  | panic
  | fuel
deriving DecidableEq, Repr

/-- The outcome without the description. -/
def DOut.forget {α} : DOut α → Out α
  | .ok a => .ok a
  | .err k _ => .err k
  | .panic => .panic
  | .fuel => .fuel

/-- An outcome whose error has the description `d`. -/
def Out.say {α} (d : Str) : Out α → DOut α
  | .ok a => .ok a
  | .err k => .err k d
  | .panic => .panic
  | .fuel => .fuel

/-- `Err(mut e) => { e.description = format!("{}{}", p, e.description); Err(e) }` -/
def DOut.front {α} (p : Str) : DOut α → DOut α
  | .err k d => .err k (p ++ d)
  | r => r

/-- `format!("Error parsing {}: ", fourcc)` (src/atom/mod.rs:92, 108). -/
def parsingText (f : Fourcc) : Str := "Error parsing ".toList ++ f.display ++ ": ".toList

/-- `format!("Error writing {}: ", fourcc)` (src/atom/mod.rs:122). -/
def writingText (f : Fourcc) : Str := "Error writing ".toList ++ f.display ++ ": ".toList

/-- A computation reading from a seekable byte stream, see `P`. -/
def D (α : Type) := Env → Bytes → Nat → DOut (α × Nat)

/-- `m? ; f` -/
def D.bind {α β} (m : D α) (f : α → D β) : D β := fun e F p =>
  match m e F p with
  | .ok (a, p') => f a e F p'
  | .err k d => .err k d
  | .panic => .panic
  | .fuel => .fuel

instance : Monad D where
  pure a := fun _ _ p => .ok (a, p)
  bind := D.bind

/-- `.map_err(|e| Error::new(kind, d))`: every error gets the description `d`. -/
def say {α} (d : Str) (m : P α) : D α := fun e F p => (m e F p).say d

/-- `?` on an `io::Result` (src/error.rs:67-71): the description is empty. -/
def quiet {α} (m : P α) : D α := say [] m

/-- `return Err(Error::new(k, d))`. -/
def failD {α} (k : ErrKind) (d : Str) : D α := fun _ _ _ => .err k d

/-- `ParseAtom::parse` and `FindAtom::find` (src/atom/mod.rs:89-97, 105-113). -/
def within {α} (f : Fourcc) (m : D α) : D α := fun e F p => (m e F p).front (parsingText f)

/-- A computation without the descriptions. -/
def D.forget {α} (m : D α) : P α := fun e F p => (m e F p).forget

/-! ### Heads and values -/

/-- `parse_head` (src/atom/head.rs:101-135). -/
def parseHeadD : D Head := do
  let len ← say "Error reading atom length".toList readU32
  let ident ← say "Error reading atom identifier".toList (readExact 4)
  let ident : Fourcc := ⟨ident.getD 0 0, ident.getD 1 0, ident.getD 2 0, ident.getD 3 0⟩
  if len = 1 then do
    let l ← say "Error reading extended atom length".toList readU64
    pure ⟨⟨true, l⟩, ident⟩
  else if len < 8 then
    failD .parsing ("Read length of '".toList ++ ident.display ++ "' which is less than 8 bytes: ".toList ++ decimal len)
  else pure ⟨⟨false, len⟩, ident⟩

/-- `parse_full_head` (src/atom/head.rs:155-175). -/
def parseFullHeadD : D (UInt8 × Bytes) := do
  let version ← say "Error reading version of full atom head".toList readU8
  let flags ← say "Error reading flags of full atom head".toList (readExact 3)
  pure (version, flags)

/-- The loop of every container atom, see `walk`. -/
def walkD {σ : Type} (limit : E Nat) (handle : σ → Head → D σ) : Nat → σ → Nat → D σ
  | 0, _, _ => quiet outOfFuel
  | f+1, s, parsed => do
    let lim ← quiet limit.p
    if parsed < lim then do
      let head ← parseHeadD
      let s' ← handle s head
      let parsed' ← quiet (addU parsed head.size.len).p
      walkD limit handle f s' parsed'
    else pure s

/-- `walkD` with the iteration bound of the environment. -/
def loopD {σ : Type} (limit : E Nat) (handle : σ → Head → D σ) (s : σ) (parsed : Nat) : D σ := do
  let f ← quiet getFuel
  walkD limit handle f s parsed

/-- `read_utf8` (src/atom/data.rs:474-478) with src/error.rs:73-80. -/
def readUtf8D (len : Nat) : D Str := do
  let b ← quiet (readU8Vec len)
  match utf8Dec b with
  | some s => pure s
  | none => failD .utf8StringDecoding "Data is not valid utf-8.".toList

/-- `read_utf16` (src/atom/data.rs:481-490) with src/error.rs:82-89. -/
def readUtf16D (len : Nat) : D Str := do
  quiet (allocU8 len).p
  let b ← quiet (readExact len)
  match utf16Dec (units16 b) with
  | some s => pure s
  | none => failD .utf16StringDecoding "Data is not valid utf-16.".toList

/-- `Data::parse` (src/atom/data.rs:418-434). -/
def Data.parseD (datatype len : Nat) : D Data :=
  match datatype with
  | 0 => do let v ← quiet (readU8Vec len); pure (.reserved v)
  | 1 => do let s ← readUtf8D len; pure (.utf8 s)
  | 2 => do let s ← readUtf16D len; pure (.utf16 s)
  | 13 => do let v ← quiet (readU8Vec len); pure (.jpeg v)
  | 14 => do let v ← quiet (readU8Vec len); pure (.png v)
  | 21 => do let v ← quiet (readU8Vec len); pure (.beSigned v)
  | 27 => do let v ← quiet (readU8Vec len); pure (.bmp v)
  | t => failD (.unknownDataType t) "Unknown datatype code".toList

/-! ### Reading (src/atom/mod.rs:299-353) -/

/-- `Ftyp::parse` (src/atom/ftyp.rs:7-16), which is no `ParseAtom`. -/
def parseFtypD : D Str := do
  let head ← parseHeadD
  if head.fourcc ≠ FILETYPE then failD .noTag "No filetype atom found.".toList
  else do
    let n ← quiet head.size.contentLen.p
    readUtf8D n

/-- `Mvhd::parse_atom` (src/atom/mvhd.rs:16-65). -/
def parseMvhdD (size : Size) : D Nat := do
  let bounds ← quiet (findBounds size)
  let (version, _) ← parseFullHeadD
  if version = 0 then quiet (do
    seekCur 8
    let timescale ← readU32
    let duration ← readU32
    let nanos ← (mulU duration 1000000000).p
    let d ← (divU nanos timescale).p
    seekToEnd bounds
    pure d)
  else if version = 1 then quiet (do
    seekCur 16
    let timescale ← readU32
    let duration ← readU64
    let nanos ← (mulU duration 1000000000).p
    let d ← (divU nanos timescale).p
    seekToEnd bounds
    pure d)
  else
    failD (.unknownVersion version)
      ("Error unknown movie header (mvhd) version ".toList ++ decimal version.toNat)

/-- `parse_esds` (src/atom/mp4a.rs:112-134). The functions reading the descriptors inside (src/atom/mp4a.rs:150-243) only
fail with I/O errors. -/
def parseEsdsD (info : Mp4a) (size : Size) : D Mp4a := do
  let (version, _) ← parseFullHeadD
  if version ≠ 0 then failD (.unknownVersion version) "Unknown MPEG-4 audio (mp4a) version".toList
  else do
    let (tag, headLen, descLen) ← quiet parseDescHead
    if tag ≠ 0x03 then failD (.descriptorNotFound 0x03) "Missing elementary stream descriptor".toList
    else do
      let n ← quiet size.contentLen.p
      let n ← quiet (subU n 4).p
      let maxLen ← quiet (subU n headLen).p
      quiet (parseEsDesc info (min descLen maxLen))

/-- `Mp4a::parse_atom` (src/atom/mp4a.rs:73-94). -/
def parseMp4aD (size : Size) : D Mp4a := do
  let bounds ← quiet (findBounds size)
  quiet (seekCur 28)
  let head ← parseHeadD
  if head.fourcc ≠ ELEMENTARY_STREAM_DESCRIPTION then
    failD (.atomNotFound ELEMENTARY_STREAM_DESCRIPTION) "Missing esds atom".toList
  else do
    let info ← parseEsdsD {} head.size
    quiet (seekToEnd bounds)
    pure info

/-- `Stsd::parse_atom` (src/atom/stsd.rs:12-43). -/
def parseStsdD (size : Size) : D (Option Mp4a) := do
  let (version, _) ← parseFullHeadD
  if version ≠ 0 then
    failD (.unknownVersion version) "Unknown sample table sample description (stsd) version".toList
  else do
    quiet (seekCur 4)
    loopD size.contentLen (fun s h =>
      if h.fourcc = MP4_AUDIO then do let a ← within MP4_AUDIO (parseMp4aD h.size); pure (some a)
      else do quiet (skipContent h); pure s) none 8

/-- `Stbl::parse_atom` (src/atom/stbl.rs:12-34). -/
def parseStblD (size : Size) : D (Option (Option Mp4a)) :=
  loopD size.contentLen (fun s h =>
    if h.fourcc = SAMPLE_TABLE_SAMPLE_DESCRIPTION then do
      let a ← within SAMPLE_TABLE_SAMPLE_DESCRIPTION (parseStsdD h.size); pure (some a)
    else do quiet (skipContent h); pure s) none 0

/-- `Minf::parse_atom` (src/atom/minf.rs:12-32). -/
def parseMinfD (size : Size) : D (Option (Option (Option Mp4a))) :=
  loopD size.contentLen (fun s h =>
    if h.fourcc = SAMPLE_TABLE then do let a ← within SAMPLE_TABLE (parseStblD h.size); pure (some a)
    else do quiet (skipContent h); pure s) none 0

/-- `Mdia::parse_atom` (src/atom/mdia.rs:12-32). -/
def parseMdiaD (size : Size) : D (Option (Option (Option (Option Mp4a)))) :=
  loopD size.contentLen (fun s h =>
    if h.fourcc = MEDIA_INFORMATION then do
      let a ← within MEDIA_INFORMATION (parseMinfD h.size); pure (some a)
    else do quiet (skipContent h); pure s) none 0

/-- `Trak::parse_atom` (src/atom/trak.rs:12-32). -/
def parseTrakD (size : Size) : D Trak :=
  loopD size.contentLen (fun s h =>
    if h.fourcc = MEDIA then do let a ← within MEDIA (parseMdiaD h.size); pure (some a)
    else do quiet (skipContent h); pure s) none 0

/-- The `match` in the loop of `AtomData::parse` (src/atom/mod.rs:198-240). -/
def itemHandleD (s : ItemSt) (h : Head) : D ItemSt :=
  if h.fourcc = DATA then do
    let (version, flags) ← parseFullHeadD
    if version ≠ 0 then failD (.unknownVersion version) "Error reading data atom (data)".toList
    else do
      let datatype := beNat flags
      quiet (seekCur 4)
      let n ← quiet h.size.contentLen.p
      let n ← quiet (subU n 8).p
      let d ← Data.parseD datatype n
      pure { s with data := s.data ++ [d] }
  else if h.fourcc = MEAN then do
    let (version, _) ← parseFullHeadD
    if version ≠ 0 then failD (.unknownVersion version) "Error reading data atom (data)".toList
    else do
      let n ← quiet h.size.contentLen.p
      let n ← quiet (subU n 4).p
      let m ← readUtf8D n
      pure { s with mean := some m }
  else if h.fourcc = NAME then do
    let (version, _) ← parseFullHeadD
    if version ≠ 0 then failD (.unknownVersion version) "Error reading data atom (data)".toList
    else do
      let n ← quiet h.size.contentLen.p
      let n ← quiet (subU n 4).p
      let m ← readUtf8D n
      pure { s with name := some m }
  else do
    quiet (skipContent h)
    pure s

/-- `AtomData::parse` (src/atom/mod.rs:189-258), which is no `ParseAtom`. -/
def parseItemD (parent : Fourcc) (len : Nat) : D AtomData := do
  let s ← loopD (pure len) itemHandleD {} 0
  if s.data.isEmpty then
    failD (.atomNotFound DATA)
      ("Error constructing atom data '".toList ++ parent.display ++ "', missing data atom".toList)
  else pure ⟨itemIdent parent s.mean s.name, s.data⟩

/-- `Ilst::parse_atom` (src/atom/ilst.rs:24-52). -/
def parseIlstD (size : Size) : D (List AtomData) :=
  loopD size.contentLen (fun s h =>
    if h.fourcc = FREE then do quiet (skipContent h); pure s
    else do
      let n ← quiet h.size.contentLen.p
      let a ← parseItemD h.fourcc n
      pure (mergeItem s a)) [] 0

/-- `Meta::parse_atom` (src/atom/meta.rs:13-42). -/
def parseMetaD (size : Size) : D (Option (List AtomData)) := do
  let (version, _) ← parseFullHeadD
  if version ≠ 0 then failD (.unknownVersion version) "Unknown metadata (meta) version".toList
  else
    loopD size.contentLen (fun s h =>
      if h.fourcc = ITEM_LIST then do let a ← within ITEM_LIST (parseIlstD h.size); pure (some a)
      else do quiet (skipContent h); pure s) none 4

/-- `Udta::parse_atom` (src/atom/udta.rs:12-32). -/
def parseUdtaD (size : Size) : D (Option (Option (List AtomData))) :=
  loopD size.contentLen (fun s h =>
    if h.fourcc = METADATA then do let a ← within METADATA (parseMetaD h.size); pure (some a)
    else do quiet (skipContent h); pure s) none 0

/-- The `match` in the loop of `Moov::parse_atom` (src/atom/moov.rs:22-29). -/
def moovHandleD (s : Moov) (h : Head) : D Moov :=
  if h.fourcc = MOVIE_HEADER then do
    let a ← within MOVIE_HEADER (parseMvhdD h.size); pure { s with mvhd := some a }
  else if h.fourcc = TRACK then do
    let a ← within TRACK (parseTrakD h.size); pure { s with trak := s.trak ++ [a] }
  else if h.fourcc = USER_DATA then do
    let a ← within USER_DATA (parseUdtaD h.size); pure { s with udta := some a }
  else do quiet (skipContent h); pure s

/-- `Moov::parse_atom` (src/atom/moov.rs:14-36). -/
def parseMoovD (size : Size) : D Moov := loopD size.contentLen moovHandleD {} 0

/-- The description of the missing `moov` (src/atom/mod.rs:308, 385). -/
def noMovieText : Str := "Missing necessary data, no movie (moov) atom found".toList

/-- The loop of `read_tag_from` (src/atom/mod.rs:303-324). -/
def topWalkD (len : Nat) : Nat → Nat → D Moov
  | 0, _ => quiet outOfFuel
  | f+1, parsed =>
    if parsed ≥ len then failD (.atomNotFound MOVIE) noMovieText
    else do
      let head ← parseHeadD
      if head.fourcc = MOVIE then within MOVIE (parseMoovD head.size)
      else do
        quiet (skipContent head)
        let parsed' ← quiet (addU parsed head.size.len).p
        topWalkD len f parsed'

/-- `read_tag_from` (src/atom/mod.rs:299-353). -/
def readTagD : D Tag := do
  let ftyp ← parseFtypD
  let len ← quiet remainingStreamLen
  let f ← quiet getFuel
  let moov ← topWalkD len f 0
  pure (mkTag ftyp moov)

/-! ### Searching (src/atom/mod.rs:360-387) -/

/-- `Stbl::find_atom` (src/atom/stbl.rs:42-67). Finding a leaf atom (see `findLeaf`) only fails with I/O errors. -/
def findStblD (size : Size) : D StblBounds := do
  let bounds ← quiet (findBounds size)
  loopD size.contentLen (fun (s : StblBounds) h =>
    if h.fourcc = SAMPLE_TABLE_CHUNK_OFFSET then do
      let a ← within SAMPLE_TABLE_CHUNK_OFFSET (quiet (findLeaf h.size)); pure { s with stco := some a }
    else if h.fourcc = SAMPLE_TABLE_CHUNK_OFFSET_64 then do
      let a ← within SAMPLE_TABLE_CHUNK_OFFSET_64 (quiet (findLeaf h.size)); pure { s with co64 := some a }
    else do quiet (skipContent h); pure s) { bounds } 0

/-- `Minf::find_atom` (src/atom/minf.rs:39-62). -/
def findMinfD (size : Size) : D (Option StblBounds) := do
  let _ ← quiet (findBounds size)
  loopD size.contentLen (fun s h =>
    if h.fourcc = SAMPLE_TABLE then do let a ← within SAMPLE_TABLE (findStblD h.size); pure (some a)
    else do quiet (skipContent h); pure s) none 0

/-- `Mdia::find_atom` (src/atom/mdia.rs:39-62). -/
def findMdiaD (size : Size) : D (Option (Option StblBounds)) := do
  let _ ← quiet (findBounds size)
  loopD size.contentLen (fun s h =>
    if h.fourcc = MEDIA_INFORMATION then do
      let a ← within MEDIA_INFORMATION (findMinfD h.size); pure (some a)
    else do quiet (skipContent h); pure s) none 0

/-- `Trak::find_atom` (src/atom/trak.rs:39-62). -/
def findTrakD (size : Size) : D (Option (Option (Option StblBounds))) := do
  let _ ← quiet (findBounds size)
  loopD size.contentLen (fun s h =>
    if h.fourcc = MEDIA then do let a ← within MEDIA (findMdiaD h.size); pure (some a)
    else do quiet (skipContent h); pure s) none 0

/-- `Meta::find_atom` (src/atom/meta.rs:91-125). -/
def findMetaD (size : Size) : D MetaBounds := do
  let bounds ← quiet (findBounds size)
  let (version, _) ← parseFullHeadD
  if version ≠ 0 then failD (.unknownVersion version) "Unknown metadata (meta) version".toList
  else
    loopD size.contentLen (fun (s : MetaBounds) h =>
      if h.fourcc = HANDLER_REFERENCE then do
        let a ← within HANDLER_REFERENCE (quiet (findLeaf h.size)); pure { s with hdlr := some a }
      else if h.fourcc = ITEM_LIST then do
        let a ← within ITEM_LIST (quiet (findLeaf h.size)); pure { s with ilst := some a }
      else do quiet (skipContent h); pure s) { bounds } 4

/-- `Udta::find_atom` (src/atom/udta.rs:61-84). -/
def findUdtaD (size : Size) : D UdtaBounds := do
  let bounds ← quiet (findBounds size)
  loopD size.contentLen (fun (s : UdtaBounds) h =>
    if h.fourcc = METADATA then do
      let a ← within METADATA (findMetaD h.size); pure { s with meta? := some a }
    else do quiet (skipContent h); pure s) { bounds } 0

/-- `Moov::find_atom` (src/atom/moov.rs:66-91). -/
def findMoovD (size : Size) : D MoovBounds := do
  let bounds ← quiet (findBounds size)
  loopD size.contentLen (fun (s : MoovBounds) h =>
    if h.fourcc = TRACK then do
      let a ← within TRACK (findTrakD h.size); pure { s with trak := s.trak ++ [a] }
    else if h.fourcc = USER_DATA then do
      let a ← within USER_DATA (findUdtaD h.size); pure { s with udta := some a }
    else do quiet (skipContent h); pure s) { bounds } 0

/-- The search phase of `write_tag_to` (src/atom/mod.rs:360-387). -/
def findTopD : D (Nat × MoovBounds) := do
  let _ ← parseFtypD
  let len ← quiet remainingStreamLen
  let s ← loopD (pure len) (fun (s : TopBounds) h =>
    if h.fourcc = MOVIE then do
      let a ← within MOVIE (findMoovD h.size); pure { s with moov := some a }
    else if h.fourcc = MEDIA_DATA then do
      let a ← within MEDIA_DATA (quiet (findLeaf h.size)); pure { s with mdat := some a }
    else do quiet (skipContent h); pure s) {} 0
  let mdatPos := match s.mdat with
    | some b => b.pos
    | none => 0
  match s.moov with
  | some m => pure (mdatPos, m)
  | none => failD (.atomNotFound MOVIE) noMovieText

/-- The two kinds of chunk offset tables: width of the entries, identifier and descriptions (src/atom/stco.rs:9-44,
src/atom/co64.rs:9-44). -/
structure TableKind where
  width : Nat
  fourcc : Fourcc
  sizeText : Str
  versionText : Str

/-- src/atom/stco.rs:9-44 -/
def stcoKind : TableKind where
  width := 4
  fourcc := SAMPLE_TABLE_CHUNK_OFFSET
  sizeText := "Sample table chunk offset (stco) offset table size doesn't match atom length".toList
  versionText := "Unknown sample table chunk offset (stco) version".toList

/-- src/atom/co64.rs:9-44 -/
def co64Kind : TableKind where
  width := 8
  fourcc := SAMPLE_TABLE_CHUNK_OFFSET_64
  sizeText := "Sample table chunk offset 64 (co64) offset table size doesn't match atom length".toList
  versionText := "Unknown 64bit sample table chunk offset (co64) version".toList

/-- `Stco::parse` and `Co64::parse` (src/atom/stco.rs:16-45, src/atom/co64.rs:16-45), see `parseTable`. -/
def parseTableD (t : TableKind) (size : Size) : D (Nat × List Nat) := within t.fourcc do
  let (version, _) ← parseFullHeadD
  if version = 0 then do
    let entries ← quiet readU32
    let content ← quiet size.contentLen.p
    if 8 + t.width * entries ≠ content then failD .parsing t.sizeText
    else do
      let tablePos ← quiet tellP
      let offsets ← quiet (readTable t.width entries)
      pure (tablePos, offsets)
  else failD (.unknownVersion version) t.versionText

/-- Search phase, plan and reading of the data to be moved (src/atom/mod.rs:357-454). -/
def preparePhaseD (atoms : List AtomData) : D (Nat × MoovBounds × Plan × Nat × Bytes) := do
  let (mdatPos, moov) ← findTopD
  quiet do
    let p ← (mkPlan moov atoms).p
    let oldLen ← seekEnd
    let movedLen ← (subU oldLen p.movedDataStart).p
    (allocU8 movedLen).p
    seekStart p.movedDataStart
    let moved ← readToEnd
    pure (mdatPos, moov, p, oldLen, moved)

/-! ### Serialisation -/

/-- A function writing to an `impl Write`, see `Wr`: the sequence of `write_all` calls, each with the description its
error has when it reaches the caller, and the outcome (errors other than those of the writer do not occur). -/
def WrD (α : Type) := Env → List (Str × Bytes) × Out α

/-- `m? ; f` -/
def WrD.bind {α β} (m : WrD α) (f : α → WrD β) : WrD β := fun e =>
  match m e with
  | (c, .ok a) => let r := f a e; (c ++ r.1, r.2)
  | (c, .err k) => (c, .err k)
  | (c, .panic) => (c, .panic)
  | (c, .fuel) => (c, .fuel)

instance : Monad WrD where
  pure a := fun _ => ([], .ok a)
  bind := WrD.bind

/-- A function none of whose writes has a description of its own. -/
def quietWr {α} (m : Wr α) : WrD α := fun e => ((m e).1.map fun b => ([], b), (m e).2)

/-- `WriteAtom::write` (src/atom/mod.rs:119-127). -/
def withinWr {α} (f : Fourcc) (m : WrD α) : WrD α := fun e =>
  ((m e).1.map fun c => (writingText f ++ c.1, c.2), (m e).2)

/-- The writes without their descriptions. -/
def WrD.forget {α} (m : WrD α) : Wr α := fun e => ((m e).1.map (·.2), (m e).2)

/-- `if let Some(a) = &x { a.write(writer)? }` -/
def wrOptD {α} (f : α → WrD Unit) : Option α → WrD Unit
  | some a => f a
  | none => pure ()

/-- `Hdlr::write` (src/atom/hdlr.rs:31-35). -/
def writeHdlrD (h : Bytes) : WrD Unit := withinWr HANDLER_REFERENCE (quietWr (writeHdlr h))

/-- `Ilst::write` (src/atom/ilst.rs:55-61); `AtomData::write` is not wrapped. -/
def writeIlstD (atoms : List AtomData) : WrD Unit := withinWr ITEM_LIST (quietWr (writeIlst atoms))

/-- `Meta::write` (src/atom/meta.rs:45-55). -/
def writeMetaD (m : MetaW) : WrD Unit := withinWr METADATA do
  quietWr (writeHead ⟨m.size, METADATA⟩)
  quietWr (writeFullHead 0 [0, 0, 0])
  wrOptD writeHdlrD m.hdlr
  wrOptD writeIlstD m.ilst

/-- `Udta::write` (src/atom/udta.rs:35-41). -/
def writeUdtaD (u : Option MetaW) : WrD Unit := withinWr USER_DATA do
  quietWr (writeHead ⟨udtaSize u, USER_DATA⟩)
  wrOptD writeMetaD u

/-- `Moov::write` (src/atom/moov.rs:39-49). -/
def writeMoovD (udta : Option (Option MetaW)) : WrD Unit := withinWr MOVIE do
  quietWr (writeHead ⟨Size.ofContent (lenOrZero udtaSize udta), MOVIE⟩)
  wrOptD writeUdtaD udta

/-- `dump_tag_to` (src/atom/mod.rs:530-547); `Ftyp::write` is not wrapped. -/
def dumpWrD (atoms : List AtomData) : WrD Unit := do
  quietWr (writeFtyp dumpFtyp)
  writeMoovD (some (some ⟨some metaHdlr, some atoms⟩))

/-- The `write_all` calls on a writer that accepts `room` more bytes and then fails: the bytes written and the outcome. -/
def fillRoom (last : Out Unit) : Nat → List (Str × Bytes) → Bytes × DOut Unit
  | _, [] => ([], last.say [])
  | room, c :: cs =>
    if c.2.length ≤ room then
      let r := fillRoom last (room - c.2.length) cs
      (c.2 ++ r.1, r.2)
    else (c.2.take room, .err .io c.1)

/-- `Tag::dump_to` (src/tag/mod.rs:117-119) to a writer that accepts `room` bytes and then fails (a `&mut [u8]` of that
length, a full disk, a closed connection). -/
def dumpTagD (room : Nat) (e : Env) (t : Tag) : Bytes × DOut Unit :=
  fillRoom (dumpWrD t.atoms e).2 room (dumpWrD t.atoms e).1

/-! ### Writing to a file (src/atom/mod.rs:356-526) -/

/-- A computation writing to a file whose calls may fail, see `FW`. -/
def FD (α : Type) := Faults → Env → FSt → DOut α × FSt

/-- `m? ; f` -/
def FD.bind {α β} (m : FD α) (f : α → FD β) : FD β := fun fl e s =>
  match m fl e s with
  | (.ok a, s') => f a fl e s'
  | (.err k d, s') => (.err k d, s')
  | (.panic, s') => (.panic, s')
  | (.fuel, s') => (.fuel, s')

instance : Monad FD where
  pure a := fun _ _ s => (.ok a, s)
  bind := FD.bind

/-- `.map_err(..)`, see `say`. -/
def sayF {α} (d : Str) (m : FW α) : FD α := fun fl e s => ((m fl e s).1.say d, (m fl e s).2)

/-- `?` on an `io::Result`, see `quiet`. -/
def quietF {α} (m : FW α) : FD α := sayF [] m

/-- A computation without the descriptions. -/
def FD.forget {α} (m : FD α) : FW α := fun fl e s => ((m fl e s).1.forget, (m fl e s).2)

/-- `for x in xs { f(x)? }` -/
def fdAll {α} (f : α → FD Unit) : List α → FD Unit
  | [] => pure ()
  | x :: xs => do f x; fdAll f xs

/-- `if let Some(a) = x { .. }` -/
def fdOpt {α} (f : α → FD Unit) : Option α → FD Unit
  | some a => f a
  | none => pure ()

/-- The descriptions of the I/O errors of a file from which a table is read: while seeking to it (src/atom/mod.rs:467, 478),
and in the table. -/
def TableKind.faultTexts (t : TableKind) : List Str :=
  [[], parsingText t.fourcc ++ "Error reading version of full atom head".toList,
    parsingText t.fourcc ++ "Error reading flags of full atom head".toList, parsingText t.fourcc]

/-- Reading a table, see `fRead`. The number in the schedule says which of the calls fails. -/
def fdRead {α} (texts : List Str) (pos : Nat) (p : D α) : FD α := fun fl e s =>
  let s' := { s with cur := e.rcur s.trace.length, tick := s.tick + 1 }
  match fl.call s.tick with
  | .none =>
    match (do quiet (seekStart pos); p) e s.file 0 with
    | .ok (a, _) => (.ok a, s')
    | .err k d => (.err k d, s')
    | .panic => (.panic, s')
    | .fuel => (.fuel, s')
  | some n => (.err .io (texts.getD n []), s')

/-- src/atom/mod.rs:466-474 and 477-485 -/
def fdPatchTable (t : TableKind) (diff : Int) (a : AtomBounds) : FD Unit := do
  let pos ← quietF a.contentPos.fw
  let (tablePos, offsets) ← fdRead t.faultTexts pos (parseTableD t a.size)
  quietF do
    fSeekStart tablePos
    fAll (fun co => do
      let n ← (addI (asI64 co) diff).fw
      fWriteAll (toBe t.width (asU64 n))) offsets
    fFlush

/-- src/atom/mod.rs:464-487 -/
def fdPatchStbl (diff : Int) (stbl : StblBounds) : FD Unit := do
  fdOpt (fdPatchTable stcoKind diff) stbl.stco
  fdOpt (fdPatchTable co64Kind diff) stbl.co64

/-- Writing an atom through the `BufWriter`. -/
def fdEmit (m : WrD Unit) : FD Unit := fun fl e s =>
  match fdAll (fun c => sayF c.1 (fWriteAll c.2)) (m e).1 fl e s with
  | (.ok _, s') => ((m e).2.say [], s')
  | x => x

/-- The atoms to insert (src/atom/mod.rs:509-518). -/
def newAtomsWrD (p : Plan) (atoms : List AtomData) : WrD Unit :=
  match p.newUdta, p.newMeta with
  | some a, _ => writeUdtaD a
  | none, some a => writeMetaD a
  | none, none => do
    wrOptD writeHdlrD p.newHdlr
    writeIlstD atoms

/-- The writing phase of `write_tag_to` (src/atom/mod.rs:456-525). -/
def fdWritePhase (mdatPos : Nat) (moov : MoovBounds) (p : Plan) (oldLen : Nat) (moved : Bytes)
    (atoms : List AtomData) : FD Unit := do
  if mdatPos > moov.bounds.pos then fdAll (fdPatchStbl p.lenDiff) (stblAtoms moov)
  quietF (fAll (fPatchHead p.lenDiff) p.updateAtoms.reverse)
  let n ← quietF (addI (asI64 oldLen) p.lenDiff).fw
  quietF (fSetLen (asU64 n))
  quietF (fSeekStart p.newAtomsStart)
  fdEmit (newAtomsWrD p atoms)
  let m ← quietF (addI (asI64 p.movedDataStart) p.lenDiff).fw
  quietF (fSeekStart (asU64 m))
  quietF (fWriteAll moved)
  quietF fFlush

/-- `write_tag_to` (src/atom/mod.rs:356-526). The calls while the file is searched do not fail here (`Faults.search` is
ignored). -/
def writeTagD (fl : Faults) (e : Env) (F : Bytes) (pos : Nat) (atoms : List AtomData) : DOut Unit × FSt :=
  let s0 : FSt := { file := F, cur := e.rcur 0 }
  match preparePhaseD atoms e F pos with
  | .ok ((mdatPos, moov, p, oldLen, moved), _) =>
    let r := fdWritePhase mdatPos moov p oldLen moved atoms fl e s0
    (r.1, fDrop fl e r.2)
  | .err k d => (.err k d, s0)
  | .panic => (.panic, s0)
  | .fuel => (.fuel, s0)

/-! ### The printed text of an error (src/error.rs:91-107) -/

/-- The derived `Debug for ErrorKind` (src/error.rs:9) with `Debug for Fourcc` (src/atom/ident.rs:202-206). `x` is the
text of the payload that comes from std. -/
def ErrKind.debug (x : Str) : ErrKind → Str
  | .atomNotFound f => "AtomNotFound(Fourcc(".toList ++ f.display ++ "))".toList
  | .descriptorNotFound t => "DescriptorNotFound(".toList ++ decimal t.toNat ++ ")".toList
  | .io => "Io(".toList ++ x ++ ")".toList
  | .noTag => "NoTag".toList
  | .parsing => "Parsing".toList
  | .unknownChannelConfig n => "UnknownChannelConfig(".toList ++ decimal n.toNat ++ ")".toList
  | .unknownDataType n => "UnknownDataType(".toList ++ decimal n ++ ")".toList
  | .unknownMediaType n => "UnknownMediaType(".toList ++ decimal n.toNat ++ ")".toList
  | .unknownVersion n => "UnknownVersion(".toList ++ decimal n.toNat ++ ")".toList
  | .utf8StringDecoding => "Utf8StringDecoding(".toList ++ x ++ ")".toList
  | .utf16StringDecoding => "Utf16StringDecoding(".toList ++ x ++ ")".toList
  | .unwritableData => "UnwritableData".toList

/-- `Debug for Error` and `Display for Error` (src/error.rs:91-107). -/
def errorText (x : Str) (k : ErrKind) (d : Str) : Str :=
  if d.isEmpty then k.debug x else k.debug x ++ ": ".toList ++ d

end Mp4
