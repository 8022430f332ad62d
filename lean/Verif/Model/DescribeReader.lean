import Verif.Model.Describe
import Verif.Model.Reader
/-
Errors with their descriptions, reading from an arbitrary reader.

The functions are those of Model/Describe.lean with the primitives of Model/Reader.lean: every call of the reader may fail, and the
error gets the description of the place it occurs in.
-/
namespace Mp4

/-- A computation reading from a reader with content `F`, see `R` and `D`. -/
def RD (α : Type) := Sched → Env → Bytes → RSt → DOut α × RSt

/-- `m? ; f` -/
def RD.bind {α β} (m : RD α) (f : α → RD β) : RD β := fun c e F s =>
  match m c e F s with
  | (.ok a, s') => f a c e F s'
  | (.err k d, s') => (.err k d, s')
  | (.panic, s') => (.panic, s')
  | (.fuel, s') => (.fuel, s')

instance : Monad RD where
  pure a := fun _ _ _ s => (.ok a, s)
  bind := RD.bind

/-- `.map_err(|e| Error::new(kind, d))`, see `say`. -/
def sayR {α} (d : Str) (m : R α) : RD α := fun c e F s => ((m c e F s).1.say d, (m c e F s).2)

/-- `?` on an `io::Result` (src/error.rs:67-71), see `quiet`. -/
def quietR {α} (m : R α) : RD α := sayR [] m

/-- `return Err(Error::new(k, d))`. -/
def failRD {α} (k : ErrKind) (d : Str) : RD α := fun _ _ _ s => (.err k d, s)

/-- `ParseAtom::parse` and `FindAtom::find` (src/atom/mod.rs:89-97, 105-113). -/
def withinR {α} (f : Fourcc) (m : RD α) : RD α := fun c e F s =>
  ((m c e F s).1.front (parsingText f), (m c e F s).2)

/-- A computation without the descriptions. -/
def RD.forget {α} (m : RD α) : R α := fun c e F s => ((m c e F s).1.forget, (m c e F s).2)

/-! ### Heads and values -/

/-- `parse_head` (src/atom/head.rs:101-135). -/
def parseHeadRD : RD Head := do
  let len ← sayR "Error reading atom length".toList readU32R
  let ident ← sayR "Error reading atom identifier".toList (readExactR 4)
  let ident : Fourcc := ⟨ident.getD 0 0, ident.getD 1 0, ident.getD 2 0, ident.getD 3 0⟩
  if len = 1 then do
    let l ← sayR "Error reading extended atom length".toList readU64R
    pure ⟨⟨true, l⟩, ident⟩
  else if len < 8 then
    failRD .parsing ("Read length of '".toList ++ ident.display ++ "' which is less than 8 bytes: ".toList ++ decimal len)
  else pure ⟨⟨false, len⟩, ident⟩

/-- `parse_full_head` (src/atom/head.rs:155-175). -/
def parseFullHeadRD : RD (UInt8 × Bytes) := do
  let version ← sayR "Error reading version of full atom head".toList readU8R
  let flags ← sayR "Error reading flags of full atom head".toList (readExactR 3)
  pure (version, flags)

/-- The loop of every container atom, see `walkR`. -/
def walkRD {σ : Type} (limit : E Nat) (handle : σ → Head → RD σ) : Nat → σ → Nat → RD σ
  | 0, _, _ => quietR outOfFuelR
  | f+1, s, parsed => do
    let lim ← quietR limit.r
    if parsed < lim then do
      let head ← parseHeadRD
      let s' ← handle s head
      let parsed' ← quietR (addU parsed head.size.len).r
      walkRD limit handle f s' parsed'
    else pure s

/-- `walkRD` with the iteration bound of the environment. -/
def loopRD {σ : Type} (limit : E Nat) (handle : σ → Head → RD σ) (s : σ) (parsed : Nat) : RD σ := do
  let f ← quietR getFuelR
  walkRD limit handle f s parsed

/-- `read_utf8` (src/atom/data.rs:474-478) with src/error.rs:73-80. -/
def readUtf8RD (len : Nat) : RD Str := do
  let b ← quietR (readU8VecR len)
  match utf8Dec b with
  | some s => pure s
  | none => failRD .utf8StringDecoding "Data is not valid utf-8.".toList

/-- `read_utf16` (src/atom/data.rs:481-490) with src/error.rs:82-89. -/
def readUtf16RD (len : Nat) : RD Str := do
  quietR (allocR len)
  let b ← quietR (readExactR len)
  match utf16Dec (units16 b) with
  | some s => pure s
  | none => failRD .utf16StringDecoding "Data is not valid utf-16.".toList

/-- `Data::parse` (src/atom/data.rs:418-434). -/
def Data.parseRD (datatype len : Nat) : RD Data :=
  match datatype with
  | 0 => do let v ← quietR (readU8VecR len); pure (.reserved v)
  | 1 => do let s ← readUtf8RD len; pure (.utf8 s)
  | 2 => do let s ← readUtf16RD len; pure (.utf16 s)
  | 13 => do let v ← quietR (readU8VecR len); pure (.jpeg v)
  | 14 => do let v ← quietR (readU8VecR len); pure (.png v)
  | 21 => do let v ← quietR (readU8VecR len); pure (.beSigned v)
  | 27 => do let v ← quietR (readU8VecR len); pure (.bmp v)
  | t => failRD (.unknownDataType t) "Unknown datatype code".toList

/-! ### Reading (src/atom/mod.rs:299-353) -/

/-- `Ftyp::parse` (src/atom/ftyp.rs:7-16), which is no `ParseAtom`. -/
def parseFtypRD : RD Str := do
  let head ← parseHeadRD
  if head.fourcc ≠ FILETYPE then failRD .noTag "No filetype atom found.".toList
  else do
    let n ← quietR head.size.contentLen.r
    readUtf8RD n

/-- `Mvhd::parse_atom` (src/atom/mvhd.rs:16-65). -/
def parseMvhdRD (size : Size) : RD Nat := do
  let bounds ← quietR (findBoundsR size)
  let (version, _) ← parseFullHeadRD
  if version = 0 then quietR (do
    seekCurR 8
    let timescale ← readU32R
    let duration ← readU32R
    let nanos ← (mulU duration 1000000000).r
    let d ← (divU nanos timescale).r
    seekToEndR bounds
    pure d)
  else if version = 1 then quietR (do
    seekCurR 16
    let timescale ← readU32R
    let duration ← readU64R
    let nanos ← (mulU duration 1000000000).r
    let d ← (divU nanos timescale).r
    seekToEndR bounds
    pure d)
  else
    failRD (.unknownVersion version)
      ("Error unknown movie header (mvhd) version ".toList ++ decimal version.toNat)

/-- `parse_esds` (src/atom/mp4a.rs:112-134). The functions reading the descriptors inside (src/atom/mp4a.rs:150-243) only
fail with I/O errors. -/
def parseEsdsRD (info : Mp4a) (size : Size) : RD Mp4a := do
  let (version, _) ← parseFullHeadRD
  if version ≠ 0 then failRD (.unknownVersion version) "Unknown MPEG-4 audio (mp4a) version".toList
  else do
    let (tag, headLen, descLen) ← quietR parseDescHeadR
    if tag ≠ 0x03 then failRD (.descriptorNotFound 0x03) "Missing elementary stream descriptor".toList
    else do
      let n ← quietR size.contentLen.r
      let n ← quietR (subU n 4).r
      let maxLen ← quietR (subU n headLen).r
      quietR (parseEsDescR info (min descLen maxLen))

/-- `Mp4a::parse_atom` (src/atom/mp4a.rs:73-94). -/
def parseMp4aRD (size : Size) : RD Mp4a := do
  let bounds ← quietR (findBoundsR size)
  quietR (seekCurR 28)
  let head ← parseHeadRD
  if head.fourcc ≠ ELEMENTARY_STREAM_DESCRIPTION then
    failRD (.atomNotFound ELEMENTARY_STREAM_DESCRIPTION) "Missing esds atom".toList
  else do
    let info ← parseEsdsRD {} head.size
    quietR (seekToEndR bounds)
    pure info

/-- `Stsd::parse_atom` (src/atom/stsd.rs:12-43). -/
def parseStsdRD (size : Size) : RD (Option Mp4a) := do
  let (version, _) ← parseFullHeadRD
  if version ≠ 0 then
    failRD (.unknownVersion version) "Unknown sample table sample description (stsd) version".toList
  else do
    quietR (seekCurR 4)
    loopRD size.contentLen (fun s h =>
      if h.fourcc = MP4_AUDIO then do let a ← withinR MP4_AUDIO (parseMp4aRD h.size); pure (some a)
      else do quietR (skipContentR h); pure s) none 8

/-- `Stbl::parse_atom` (src/atom/stbl.rs:12-34). -/
def parseStblRD (size : Size) : RD (Option (Option Mp4a)) :=
  loopRD size.contentLen (fun s h =>
    if h.fourcc = SAMPLE_TABLE_SAMPLE_DESCRIPTION then do
      let a ← withinR SAMPLE_TABLE_SAMPLE_DESCRIPTION (parseStsdRD h.size); pure (some a)
    else do quietR (skipContentR h); pure s) none 0

/-- `Minf::parse_atom` (src/atom/minf.rs:12-32). -/
def parseMinfRD (size : Size) : RD (Option (Option (Option Mp4a))) :=
  loopRD size.contentLen (fun s h =>
    if h.fourcc = SAMPLE_TABLE then do let a ← withinR SAMPLE_TABLE (parseStblRD h.size); pure (some a)
    else do quietR (skipContentR h); pure s) none 0

/-- `Mdia::parse_atom` (src/atom/mdia.rs:12-32). -/
def parseMdiaRD (size : Size) : RD (Option (Option (Option (Option Mp4a)))) :=
  loopRD size.contentLen (fun s h =>
    if h.fourcc = MEDIA_INFORMATION then do
      let a ← withinR MEDIA_INFORMATION (parseMinfRD h.size); pure (some a)
    else do quietR (skipContentR h); pure s) none 0

/-- `Trak::parse_atom` (src/atom/trak.rs:12-32). -/
def parseTrakRD (size : Size) : RD Trak :=
  loopRD size.contentLen (fun s h =>
    if h.fourcc = MEDIA then do let a ← withinR MEDIA (parseMdiaRD h.size); pure (some a)
    else do quietR (skipContentR h); pure s) none 0

/-- The `match` in the loop of `AtomData::parse` (src/atom/mod.rs:198-240). -/
def itemHandleRD (s : ItemSt) (h : Head) : RD ItemSt :=
  if h.fourcc = DATA then do
    let (version, flags) ← parseFullHeadRD
    if version ≠ 0 then failRD (.unknownVersion version) "Error reading data atom (data)".toList
    else do
      let datatype := beNat flags
      quietR (seekCurR 4)
      let n ← quietR h.size.contentLen.r
      let n ← quietR (subU n 8).r
      let d ← Data.parseRD datatype n
      pure { s with data := s.data ++ [d] }
  else if h.fourcc = MEAN then do
    let (version, _) ← parseFullHeadRD
    if version ≠ 0 then failRD (.unknownVersion version) "Error reading data atom (data)".toList
    else do
      let n ← quietR h.size.contentLen.r
      let n ← quietR (subU n 4).r
      let m ← readUtf8RD n
      pure { s with mean := some m }
  else if h.fourcc = NAME then do
    let (version, _) ← parseFullHeadRD
    if version ≠ 0 then failRD (.unknownVersion version) "Error reading data atom (data)".toList
    else do
      let n ← quietR h.size.contentLen.r
      let n ← quietR (subU n 4).r
      let m ← readUtf8RD n
      pure { s with name := some m }
  else do
    quietR (skipContentR h)
    pure s

/-- `AtomData::parse` (src/atom/mod.rs:189-258), which is no `ParseAtom`. -/
def parseItemRD (parent : Fourcc) (len : Nat) : RD AtomData := do
  let s ← loopRD (pure len) itemHandleRD {} 0
  if s.data.isEmpty then
    failRD (.atomNotFound DATA)
      ("Error constructing atom data '".toList ++ parent.display ++ "', missing data atom".toList)
  else pure ⟨itemIdent parent s.mean s.name, s.data⟩

/-- `Ilst::parse_atom` (src/atom/ilst.rs:24-52). -/
def parseIlstRD (size : Size) : RD (List AtomData) :=
  loopRD size.contentLen (fun s h =>
    if h.fourcc = FREE then do quietR (skipContentR h); pure s
    else do
      let n ← quietR h.size.contentLen.r
      let a ← parseItemRD h.fourcc n
      pure (mergeItem s a)) [] 0

/-- `Meta::parse_atom` (src/atom/meta.rs:13-42). -/
def parseMetaRD (size : Size) : RD (Option (List AtomData)) := do
  let (version, _) ← parseFullHeadRD
  if version ≠ 0 then failRD (.unknownVersion version) "Unknown metadata (meta) version".toList
  else
    loopRD size.contentLen (fun s h =>
      if h.fourcc = ITEM_LIST then do let a ← withinR ITEM_LIST (parseIlstRD h.size); pure (some a)
      else do quietR (skipContentR h); pure s) none 4

/-- `Udta::parse_atom` (src/atom/udta.rs:12-32). -/
def parseUdtaRD (size : Size) : RD (Option (Option (List AtomData))) :=
  loopRD size.contentLen (fun s h =>
    if h.fourcc = METADATA then do let a ← withinR METADATA (parseMetaRD h.size); pure (some a)
    else do quietR (skipContentR h); pure s) none 0

/-- The `match` in the loop of `Moov::parse_atom` (src/atom/moov.rs:22-29). -/
def moovHandleRD (s : Moov) (h : Head) : RD Moov :=
  if h.fourcc = MOVIE_HEADER then do
    let a ← withinR MOVIE_HEADER (parseMvhdRD h.size); pure { s with mvhd := some a }
  else if h.fourcc = TRACK then do
    let a ← withinR TRACK (parseTrakRD h.size); pure { s with trak := s.trak ++ [a] }
  else if h.fourcc = USER_DATA then do
    let a ← withinR USER_DATA (parseUdtaRD h.size); pure { s with udta := some a }
  else do quietR (skipContentR h); pure s

/-- `Moov::parse_atom` (src/atom/moov.rs:14-36). -/
def parseMoovRD (size : Size) : RD Moov := loopRD size.contentLen moovHandleRD {} 0

/-- The loop of `read_tag_from` (src/atom/mod.rs:303-324). -/
def topWalkRD (len : Nat) : Nat → Nat → RD Moov
  | 0, _ => quietR outOfFuelR
  | f+1, parsed =>
    if parsed ≥ len then failRD (.atomNotFound MOVIE) noMovieText
    else do
      let head ← parseHeadRD
      if head.fourcc = MOVIE then withinR MOVIE (parseMoovRD head.size)
      else do
        quietR (skipContentR head)
        let parsed' ← quietR (addU parsed head.size.len).r
        topWalkRD len f parsed'

/-- `read_tag_from` (src/atom/mod.rs:299-353). -/
def readTagRD : RD Tag := do
  let ftyp ← parseFtypRD
  let len ← quietR remainingStreamLenR
  let f ← quietR getFuelR
  let moov ← topWalkRD len f 0
  pure (mkTag ftyp moov)

/-! ### Searching (src/atom/mod.rs:360-387) -/

/-- `Stbl::find_atom` (src/atom/stbl.rs:42-67). Finding a leaf atom (see `findLeaf`) only fails with I/O errors. -/
def findStblRD (size : Size) : RD StblBounds := do
  let bounds ← quietR (findBoundsR size)
  loopRD size.contentLen (fun (s : StblBounds) h =>
    if h.fourcc = SAMPLE_TABLE_CHUNK_OFFSET then do
      let a ← withinR SAMPLE_TABLE_CHUNK_OFFSET (quietR (findLeafR h.size)); pure { s with stco := some a }
    else if h.fourcc = SAMPLE_TABLE_CHUNK_OFFSET_64 then do
      let a ← withinR SAMPLE_TABLE_CHUNK_OFFSET_64 (quietR (findLeafR h.size)); pure { s with co64 := some a }
    else do quietR (skipContentR h); pure s) { bounds } 0

/-- `Minf::find_atom` (src/atom/minf.rs:39-62). -/
def findMinfRD (size : Size) : RD (Option StblBounds) := do
  let _ ← quietR (findBoundsR size)
  loopRD size.contentLen (fun s h =>
    if h.fourcc = SAMPLE_TABLE then do let a ← withinR SAMPLE_TABLE (findStblRD h.size); pure (some a)
    else do quietR (skipContentR h); pure s) none 0

/-- `Mdia::find_atom` (src/atom/mdia.rs:39-62). -/
def findMdiaRD (size : Size) : RD (Option (Option StblBounds)) := do
  let _ ← quietR (findBoundsR size)
  loopRD size.contentLen (fun s h =>
    if h.fourcc = MEDIA_INFORMATION then do
      let a ← withinR MEDIA_INFORMATION (findMinfRD h.size); pure (some a)
    else do quietR (skipContentR h); pure s) none 0

/-- `Trak::find_atom` (src/atom/trak.rs:39-62). -/
def findTrakRD (size : Size) : RD (Option (Option (Option StblBounds))) := do
  let _ ← quietR (findBoundsR size)
  loopRD size.contentLen (fun s h =>
    if h.fourcc = MEDIA then do let a ← withinR MEDIA (findMdiaRD h.size); pure (some a)
    else do quietR (skipContentR h); pure s) none 0

/-- `Meta::find_atom` (src/atom/meta.rs:91-125). -/
def findMetaRD (size : Size) : RD MetaBounds := do
  let bounds ← quietR (findBoundsR size)
  let (version, _) ← parseFullHeadRD
  if version ≠ 0 then failRD (.unknownVersion version) "Unknown metadata (meta) version".toList
  else
    loopRD size.contentLen (fun (s : MetaBounds) h =>
      if h.fourcc = HANDLER_REFERENCE then do
        let a ← withinR HANDLER_REFERENCE (quietR (findLeafR h.size)); pure { s with hdlr := some a }
      else if h.fourcc = ITEM_LIST then do
        let a ← withinR ITEM_LIST (quietR (findLeafR h.size)); pure { s with ilst := some a }
      else do quietR (skipContentR h); pure s) { bounds } 4

/-- `Udta::find_atom` (src/atom/udta.rs:61-84). -/
def findUdtaRD (size : Size) : RD UdtaBounds := do
  let bounds ← quietR (findBoundsR size)
  loopRD size.contentLen (fun (s : UdtaBounds) h =>
    if h.fourcc = METADATA then do
      let a ← withinR METADATA (findMetaRD h.size); pure { s with meta? := some a }
    else do quietR (skipContentR h); pure s) { bounds } 0

/-- `Moov::find_atom` (src/atom/moov.rs:66-91). -/
def findMoovRD (size : Size) : RD MoovBounds := do
  let bounds ← quietR (findBoundsR size)
  loopRD size.contentLen (fun (s : MoovBounds) h =>
    if h.fourcc = TRACK then do
      let a ← withinR TRACK (findTrakRD h.size); pure { s with trak := s.trak ++ [a] }
    else if h.fourcc = USER_DATA then do
      let a ← withinR USER_DATA (findUdtaRD h.size); pure { s with udta := some a }
    else do quietR (skipContentR h); pure s) { bounds } 0

/-- The search phase of `write_tag_to` (src/atom/mod.rs:360-387). -/
def findTopRD : RD (Nat × MoovBounds) := do
  let _ ← parseFtypRD
  let len ← quietR remainingStreamLenR
  let s ← loopRD (pure len) (fun (s : TopBounds) h =>
    if h.fourcc = MOVIE then do
      let a ← withinR MOVIE (findMoovRD h.size); pure { s with moov := some a }
    else if h.fourcc = MEDIA_DATA then do
      let a ← withinR MEDIA_DATA (quietR (findLeafR h.size)); pure { s with mdat := some a }
    else do quietR (skipContentR h); pure s) {} 0
  let mdatPos := match s.mdat with
    | some b => b.pos
    | none => 0
  match s.moov with
  | some m => pure (mdatPos, m)
  | none => failRD (.atomNotFound MOVIE) noMovieText

/-- Search phase, plan and reading of the data to be moved (src/atom/mod.rs:357-454). -/
def preparePhaseRD (atoms : List AtomData) : RD (Nat × MoovBounds × Plan × Nat × Bytes) := do
  let (mdatPos, moov) ← findTopRD
  quietR do
    let p ← (mkPlan moov atoms).r
    let oldLen ← seekEndR
    let movedLen ← (subU oldLen p.movedDataStart).r
    allocR movedLen
    seekStartR p.movedDataStart
    let moved ← readToEndR
    pure (mdatPos, moov, p, oldLen, moved)

/-- `Tag::read_from` (src/tag/mod.rs:93-95) on a reader with content `F` positioned at `pos` that behaves as in `c`, see
`readTagVia`. -/
def readTagViaD (c : Sched) (e : Env) (F : Bytes) (pos : Nat) : DOut Tag × RSt := readTagRD c e F { pos := pos }

/-- `write_tag_to` (src/atom/mod.rs:356-526), searching the file and reading the data to be moved with a reader that behaves as in
`c`, see `writeTagVia`; the calls of the writing phase fail as in `calls`, see `writeTagD`. -/
def writeTagViaD (c : Sched) (calls : Nat → Option Nat) (e : Env) (F : Bytes) (pos : Nat) (atoms : List AtomData) :
    DOut Unit × FSt × RSt :=
  let fl : Faults := ⟨calls, false⟩
  let s0 : FSt := { file := F, cur := e.rcur 0 }
  match preparePhaseRD atoms c e F { pos := pos } with
  | (.ok (mdatPos, moov, p, oldLen, moved), r) =>
    let w := fdWritePhase mdatPos moov p oldLen moved atoms fl e s0
    (w.1, fDrop fl e w.2, r)
  | (.err k d, r) => (.err k d, s0, r)
  | (.panic, r) => (.panic, s0, r)
  | (.fuel, r) => (.fuel, s0, r)

end Mp4
