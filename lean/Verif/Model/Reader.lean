import Verif.Model.Fault
/-
Reading from an arbitrary reader: `read` may return fewer bytes than asked for, may be interrupted, and every call may
fail.

The functions are those of Model/Data.lean, Model/Head.lean, Model/Read.lean and Model/Find.lean with other primitives.
-/
namespace Mp4

/-- What the reader does in one call. `give n`: `read` returns at most `n + 1` bytes (fewer if fewer were asked for or are
left; none only at the end of the data); `intr`: `ErrorKind::Interrupted`; `err`: any other error. `seek` succeeds if
this is `give` (and the position is in range). -/
inductive Call where
  | give (n : Nat)
  | intr
  | err
deriving DecidableEq, Repr

/-- What the reader does in the `k`-th call. -/
abbrev Sched := Nat → Call

/-- State of the reader: the position, the number of calls so far, and whether an error has been reported to the crate
(that is, one that is not retried by std). `mem` is not part of the reader: the sizes (in bytes) of the buffers that were requested so
far because of a size found in the input, the latest first. -/
structure RSt where
  pos : Nat
  tick : Nat := 0
  hit : Bool := false
  mem : List Nat := []
deriving DecidableEq, Repr

/-- A computation reading from a reader with content `F`. -/
def R (α : Type) := Sched → Env → Bytes → RSt → Out α × RSt

/-- `m? ; f` -/
def R.bind {α β} (m : R α) (f : α → R β) : R β := fun c e F s =>
  match m c e F s with
  | (.ok a, s') => f a c e F s'
  | (.err k, s') => (.err k, s')
  | (.panic, s') => (.panic, s')
  | (.fuel, s') => (.fuel, s')

instance : Monad R where
  pure a := fun _ _ _ s => (.ok a, s)
  bind := R.bind

/-- Arithmetic. -/
def E.r {α} (m : E α) : R α := fun _ e _ s => (m e, s)

/-- `return Err(..)`. -/
def failR {α} (k : ErrKind) : R α := fun _ _ _ s => (.err k, s)

/-- A loop that exceeded the allowed number of iterations. -/
def outOfFuelR {α} : R α := fun _ _ _ s => (.fuel, s)

/-- The number of iterations each loop may take. -/
def getFuelR : R Nat := fun _ e _ s => (.ok e.fuel, s)

/-- A buffer of `n` bytes is requested, where `n` cannot exceed the largest size of a `Vec`: `Vec::with_capacity` of a table
(src/atom/stco.rs:31, src/atom/co64.rs:31). -/
def askR (n : Nat) : R Unit := fun _ _ _ s => (.ok (), { s with mem := n :: s.mem })

/-- `vec![0u8; n]` (src/atom/data.rs:468, src/atom/data.rs:482) and `Vec::with_capacity(n)` (src/atom/mod.rs:452); see `allocU8`. -/
def allocR (n : Nat) : R Unit := do askR n; (allocU8 n).r

/-- `std::io::default_read_exact`: `read` until the buffer (of which `n` bytes are left) is full. `acc` has been read. -/
def readExactLoop : Nat → Nat → Bytes → R Bytes
  | 0, _, _ => outOfFuelR
  | f+1, n, acc => fun c e F s =>
    if n = 0 then (.ok acc, s)
    else
      match c s.tick with
      | .give k =>
        let b := (F.drop s.pos).take (min (k + 1) n)
        let s' := { s with pos := s.pos + b.length, tick := s.tick + 1 }
        if b.isEmpty then (.err .io, s') else readExactLoop f (n - b.length) (acc ++ b) c e F s'
      | .intr => readExactLoop f n acc c e F { s with tick := s.tick + 1 }
      | .err => (.err .io, { s with tick := s.tick + 1, hit := true })

/-- `Read::read_exact` on a buffer of `n` bytes. -/
def readExactR (n : Nat) : R Bytes := fun c e F s => readExactLoop e.fuel n [] c e F s

/-- `std::io::default_read_to_end`: `read` until there is nothing left. -/
def readToEndLoop : Nat → Bytes → R Bytes
  | 0, _ => outOfFuelR
  | f+1, acc => fun c e F s =>
    match c s.tick with
    | .give k =>
      let b := (F.drop s.pos).take (k + 1)
      let s' := { s with pos := s.pos + b.length, tick := s.tick + 1 }
      if b.isEmpty then (.ok acc, s') else readToEndLoop f (acc ++ b) c e F s'
    | .intr => readToEndLoop f acc c e F { s with tick := s.tick + 1 }
    | .err => (.err .io, { s with tick := s.tick + 1, hit := true })

/-- `Read::read_to_end`. -/
def readToEndR : R Bytes := fun c e F s => readToEndLoop e.fuel [] c e F s

/-- `Seek::seek` to the position `p`; the result is the new position. Interruptions are not retried by std. -/
def seekR (p : Int) : R Nat := fun c e _ s =>
  match c s.tick with
  | .give _ =>
    if 0 ≤ p ∧ p ≤ e.maxPos then (.ok p.toNat, { s with pos := p.toNat, tick := s.tick + 1 })
    else (.err .io, { s with tick := s.tick + 1 })
  | _ => (.err .io, { s with tick := s.tick + 1, hit := true })

/-- `Seek::seek(SeekFrom::Current(n))`. -/
def seekCurR (n : Int) : R Unit := fun c e F s => (do let _ ← seekR (s.pos + n); pure ()) c e F s

/-- `Seek::seek(SeekFrom::Start(n))`. -/
def seekStartR (n : Nat) : R Unit := do let _ ← seekR n; pure ()

/-- `Seek::seek` to a position that is in range. -/
def seekInR (p : Nat) : R Nat := fun c _ _ s =>
  match c s.tick with
  | .give _ => (.ok p, { s with pos := p, tick := s.tick + 1 })
  | _ => (.err .io, { s with tick := s.tick + 1, hit := true })

/-- `Seek::seek(SeekFrom::Current(0))`, the current position. -/
def tellR : R Nat := fun c e F s => seekInR s.pos c e F s

/-- `Seek::seek(SeekFrom::End(0))`, returns the length and moves there. -/
def seekEndR : R Nat := fun c e F s => seekInR F.length c e F s

/-! ### `ReadData` (src/atom/data.rs:437-491) -/

/-- `read_u8` (src/atom/data.rs:439-443). -/
def readU8R : R UInt8 := do
  let b ← readExactR 1
  pure (b.headD 0)

/-- `read_u16` (src/atom/data.rs:446-450). -/
def readU16R : R Nat := do
  let b ← readExactR 2
  pure (beNat b)

/-- `read_u32` (src/atom/data.rs:453-457). -/
def readU32R : R Nat := do
  let b ← readExactR 4
  pure (beNat b)

/-- `read_u64` (src/atom/data.rs:460-464). -/
def readU64R : R Nat := do
  let b ← readExactR 8
  pure (beNat b)

/-- `read_u8_vec` (src/atom/data.rs:467-471). -/
def readU8VecR (len : Nat) : R Bytes := do
  allocR len
  readExactR len

/-- `read_utf8` (src/atom/data.rs:474-478). -/
def readUtf8R (len : Nat) : R Str := do
  let b ← readU8VecR len
  match utf8Dec b with
  | some s => pure s
  | none => failR .utf8StringDecoding

/-- `read_utf16` (src/atom/data.rs:481-490). -/
def readUtf16R (len : Nat) : R Str := do
  allocR len
  let b ← readExactR len
  match utf16Dec (units16 b) with
  | some s => pure s
  | none => failR .utf16StringDecoding

/-- `remaining_stream_len` (src/atom/data.rs:496-504). -/
def remainingStreamLenR : R Nat := do
  let current ← tellR
  let complete ← seekEndR
  let len ← (subU complete current).r
  seekStartR current
  pure len

/-- `Data::parse` (src/atom/data.rs:418-434, codes 8-36). -/
def Data.parseR (datatype len : Nat) : R Data :=
  match datatype with
  | 0 => do let v ← readU8VecR len; pure (.reserved v)
  | 1 => do let s ← readUtf8R len; pure (.utf8 s)
  | 2 => do let s ← readUtf16R len; pure (.utf16 s)
  | 13 => do let v ← readU8VecR len; pure (.jpeg v)
  | 14 => do let v ← readU8VecR len; pure (.png v)
  | 21 => do let v ← readU8VecR len; pure (.beSigned v)
  | 27 => do let v ← readU8VecR len; pure (.bmp v)
  | t => failR (.unknownDataType t)

/-! ### Heads and the loop of container atoms (src/atom/head.rs) -/

/-- `parse_head` (src/atom/head.rs:101-135). -/
def parseHeadR : R Head := do
  let len ← readU32R
  let ident ← readExactR 4
  let ident : Fourcc := ⟨ident.getD 0 0, ident.getD 1 0, ident.getD 2 0, ident.getD 3 0⟩
  if len = 1 then do
    let l ← readU64R
    pure ⟨⟨true, l⟩, ident⟩
  else if len < 8 then failR .parsing
  else pure ⟨⟨false, len⟩, ident⟩

/-- `parse_full_head` (src/atom/head.rs:155-175). -/
def parseFullHeadR : R (UInt8 × Bytes) := do
  let version ← readU8R
  let flags ← readExactR 3
  pure (version, flags)

/-- `find_bounds` (src/atom/head.rs:215-218). -/
def findBoundsR (size : Size) : R AtomBounds := do
  let cur ← tellR
  let pos ← (subU cur size.headLen).r
  pure ⟨pos, size⟩

/-- `seek_to_end` (src/atom/head.rs:220-225). -/
def seekToEndR (b : AtomBounds) : R Unit := do
  let current ← tellR
  let end_ ← b.end_.r
  let diff ← (subU end_ current).r
  seekCurR (asI64 diff)

/-- `reader.seek(SeekFrom::Current(head.content_len() as i64))`, the default branch of every
container loop (e.g. src/atom/moov.rs:26-28). -/
def skipContentR (h : Head) : R Unit := do
  let n ← h.size.contentLen.r
  seekCurR (asI64 n)

/-- The loop of every container atom (e.g. src/atom/moov.rs:19-32):
`while parsed_bytes < limit { let head = parse_head(reader)?; <handle>; parsed_bytes += head.len() }`.
`limit` is evaluated on every iteration; `handle` is the `match` on the identifier, updating the
local variables of the function (`σ`). The first argument bounds the iterations. -/
def walkR {σ : Type} (limit : E Nat) (handle : σ → Head → R σ) : Nat → σ → Nat → R σ
  | 0, _, _ => outOfFuelR
  | f+1, s, parsed => do
    let lim ← limit.r
    if parsed < lim then do
      let head ← parseHeadR
      let s' ← handle s head
      let parsed' ← (addU parsed head.size.len).r
      walkR limit handle f s' parsed'
    else pure s

/-- `walk` with the iteration bound of the environment. -/
def loopR {σ : Type} (limit : E Nat) (handle : σ → Head → R σ) (s : σ) (parsed : Nat) : R σ := do
  let f ← getFuelR
  walkR limit handle f s parsed

/-! ### `ParseAtom` and `read_tag_from` -/

/-- `Ftyp::parse` (src/atom/ftyp.rs:7-16). -/
def parseFtypR : R Str := do
  let head ← parseHeadR
  if head.fourcc ≠ FILETYPE then failR .noTag
  else do
    let n ← head.size.contentLen.r
    readUtf8R n

/-- `Mvhd::parse_atom` (src/atom/mvhd.rs:16-65); the duration in nanoseconds. -/
def parseMvhdR (size : Size) : R Nat := do
  let bounds ← findBoundsR size
  let (version, _) ← parseFullHeadR
  if version = 0 then do
    seekCurR 8
    let timescale ← readU32R
    let duration ← readU32R
    let nanos ← (mulU duration 1000000000).r
    let d ← (divU nanos timescale).r
    seekToEndR bounds
    pure d
  else if version = 1 then do
    seekCurR 16
    let timescale ← readU32R
    let duration ← readU64R
    let nanos ← (mulU duration 1000000000).r
    let d ← (divU nanos timescale).r
    seekToEndR bounds
    pure d
  else failR (.unknownVersion version)

/-- The loop of `parse_desc_head` (src/atom/mp4a.rs:231-240); `k` is `5 - head_len`.
`(len << 7) | (b & 0x7F)` is `len * 128 + b % 128` because at most 28 bits are used;
`b & 0x80 == 0` is `b < 128`. -/
def descHeadLoopR : Nat → Nat → Nat → R (Nat × Nat)
  | 0, headLen, len => pure (headLen, len)
  | k+1, headLen, len => do
    let b ← readU8R
    let len := len * 128 + b.toNat % 128
    let headLen := headLen + 1
    if b.toNat < 128 then pure (headLen, len) else descHeadLoopR k headLen len

/-- `parse_desc_head` (src/atom/mp4a.rs:228-243): tag, length of the head, length of the body. -/
def parseDescHeadR : R (UInt8 × Nat × Nat) := do
  let tag ← readU8R
  let (headLen, len) ← descHeadLoopR 4 1 0
  pure (tag, headLen, len)

/-- `parse_ds_desc` (src/atom/mp4a.rs:215-226). Shifts and masks are division and remainder. -/
def parseDsDescR (info : Mp4a) (len : Nat) : R Mp4a := do
  let num ← readU16R
  let info := { info with
    sampleRate := SampleRate.ofCode (num / 128 % 16)
    channelConfig := ChannelConfig.ofCode (num / 8 % 16) }
  let n ← (subU len 2).r
  seekCurR (asI64 n)
  pure info

/-- The loops of `parse_dc_desc` and `parse_es_desc` (src/atom/mp4a.rs:153-165, 188-200):
`while parsed_bytes < len { parse_desc_head; match tag { wanted => .., _ => skip }; parsed += .. }`. -/
def descWalkR (wanted : UInt8) (handle : Mp4a → Nat → R Mp4a) (limit : Nat) :
    Nat → Mp4a → Nat → R Mp4a
  | 0, _, _ => outOfFuelR
  | f+1, info, parsed =>
    if parsed < limit then do
      let (tag, headLen, descLen) ← parseDescHeadR
      let info' ← (if tag = wanted then handle info descLen
                   else do seekCurR (asI64 descLen); pure info)
      let step ← (addU headLen descLen).r
      let parsed' ← (addU parsed step).r
      descWalkR wanted handle limit f info' parsed'
    else pure info

/-- `parse_dc_desc` (src/atom/mp4a.rs:183-203). -/
def parseDcDescR (info : Mp4a) (len : Nat) : R Mp4a := do
  seekCurR 5
  let mx ← readU32R
  let avg ← readU32R
  let f ← getFuelR
  descWalkR 0x05 parseDsDescR len f { info with maxBitrate := some mx, avgBitrate := some avg } 13

/-- `parse_es_desc` (src/atom/mp4a.rs:150-168). -/
def parseEsDescR (info : Mp4a) (len : Nat) : R Mp4a := do
  seekCurR 3
  let f ← getFuelR
  descWalkR 0x04 parseDcDescR len f info 3

/-- `parse_esds` (src/atom/mp4a.rs:112-134). -/
def parseEsdsR (info : Mp4a) (size : Size) : R Mp4a := do
  let (version, _) ← parseFullHeadR
  if version ≠ 0 then failR (.unknownVersion version)
  else do
    let (tag, headLen, descLen) ← parseDescHeadR
    if tag ≠ 0x03 then failR (.descriptorNotFound 0x03)
    else do
      let n ← size.contentLen.r
      let n ← (subU n 4).r
      let maxLen ← (subU n headLen).r
      parseEsDescR info (min descLen maxLen)

/-- `Mp4a::parse_atom` (src/atom/mp4a.rs:73-94). -/
def parseMp4aR (size : Size) : R Mp4a := do
  let bounds ← findBoundsR size
  seekCurR 28
  let head ← parseHeadR
  if head.fourcc ≠ ELEMENTARY_STREAM_DESCRIPTION then
    failR (.atomNotFound ELEMENTARY_STREAM_DESCRIPTION)
  else do
    let info ← parseEsdsR {} head.size
    seekToEndR bounds
    pure info

/-- `Stsd::parse_atom` (src/atom/stsd.rs:12-43); result: `stsd.mp4a`. -/
def parseStsdR (size : Size) : R (Option Mp4a) := do
  let (version, _) ← parseFullHeadR
  if version ≠ 0 then failR (.unknownVersion version)
  else do
    seekCurR 4
    loopR size.contentLen (fun s h =>
      if h.fourcc = MP4_AUDIO then do let a ← parseMp4aR h.size; pure (some a)
      else do skipContentR h; pure s) none 8

/-- `Stbl::parse_atom` (src/atom/stbl.rs:12-34); result: `stbl.stsd` as the optional `mp4a`
inside. -/
def parseStblR (size : Size) : R (Option (Option Mp4a)) :=
  loopR size.contentLen (fun s h =>
    if h.fourcc = SAMPLE_TABLE_SAMPLE_DESCRIPTION then do let a ← parseStsdR h.size; pure (some a)
    else do skipContentR h; pure s) none 0

/-- `Minf::parse_atom` (src/atom/minf.rs:12-32); result: `minf.stbl`. -/
def parseMinfR (size : Size) : R (Option (Option (Option Mp4a))) :=
  loopR size.contentLen (fun s h =>
    if h.fourcc = SAMPLE_TABLE then do let a ← parseStblR h.size; pure (some a)
    else do skipContentR h; pure s) none 0

/-- `Mdia::parse_atom` (src/atom/mdia.rs:12-32); result: `mdia.minf`. -/
def parseMdiaR (size : Size) : R (Option (Option (Option (Option Mp4a)))) :=
  loopR size.contentLen (fun s h =>
    if h.fourcc = MEDIA_INFORMATION then do let a ← parseMinfR h.size; pure (some a)
    else do skipContentR h; pure s) none 0

/-- `Trak::parse_atom` (src/atom/trak.rs:12-32). -/
def parseTrakR (size : Size) : R Trak :=
  loopR size.contentLen (fun s h =>
    if h.fourcc = MEDIA then do let a ← parseMdiaR h.size; pure (some a)
    else do skipContentR h; pure s) none 0

/-- The `match` in the loop of `AtomData::parse` (src/atom/mod.rs:198-240). -/
def itemHandleR (s : ItemSt) (h : Head) : R ItemSt :=
  if h.fourcc = DATA then do
    let (version, flags) ← parseFullHeadR
    if version ≠ 0 then failR (.unknownVersion version)
    else do
      let datatype := beNat flags
      seekCurR 4
      let n ← h.size.contentLen.r
      let n ← (subU n 8).r
      let d ← Data.parseR datatype n
      pure { s with data := s.data ++ [d] }
  else if h.fourcc = MEAN then do
    let (version, _) ← parseFullHeadR
    if version ≠ 0 then failR (.unknownVersion version)
    else do
      let n ← h.size.contentLen.r
      let n ← (subU n 4).r
      let m ← readUtf8R n
      pure { s with mean := some m }
  else if h.fourcc = NAME then do
    let (version, _) ← parseFullHeadR
    if version ≠ 0 then failR (.unknownVersion version)
    else do
      let n ← h.size.contentLen.r
      let n ← (subU n 4).r
      let m ← readUtf8R n
      pure { s with name := some m }
  else do
    skipContentR h
    pure s

/-- `AtomData::parse` (src/atom/mod.rs:189-258). -/
def parseItemR (parent : Fourcc) (len : Nat) : R AtomData := do
  let s ← loopR (pure len) itemHandleR {} 0
  if s.data.isEmpty then failR (.atomNotFound DATA)
  else pure ⟨itemIdent parent s.mean s.name, s.data⟩

/-- `Ilst::parse_atom` (src/atom/ilst.rs:24-52). -/
def parseIlstR (size : Size) : R (List AtomData) :=
  loopR size.contentLen (fun s h =>
    if h.fourcc = FREE then do skipContentR h; pure s
    else do
      let n ← h.size.contentLen.r
      let a ← parseItemR h.fourcc n
      pure (mergeItem s a)) [] 0

/-- `Meta::parse_atom` (src/atom/meta.rs:13-42); result: `meta.ilst`. -/
def parseMetaR (size : Size) : R (Option (List AtomData)) := do
  let (version, _) ← parseFullHeadR
  if version ≠ 0 then failR (.unknownVersion version)
  else
    loopR size.contentLen (fun s h =>
      if h.fourcc = ITEM_LIST then do let a ← parseIlstR h.size; pure (some a)
      else do skipContentR h; pure s) none 4

/-- `Udta::parse_atom` (src/atom/udta.rs:12-32); result: `udta.meta`. -/
def parseUdtaR (size : Size) : R (Option (Option (List AtomData))) :=
  loopR size.contentLen (fun s h =>
    if h.fourcc = METADATA then do let a ← parseMetaR h.size; pure (some a)
    else do skipContentR h; pure s) none 0

/-- The `match` in the loop of `Moov::parse_atom` (src/atom/moov.rs:22-29). -/
def moovHandleR (s : Moov) (h : Head) : R Moov :=
  if h.fourcc = MOVIE_HEADER then do let a ← parseMvhdR h.size; pure { s with mvhd := some a }
  else if h.fourcc = TRACK then do let a ← parseTrakR h.size; pure { s with trak := s.trak ++ [a] }
  else if h.fourcc = USER_DATA then do let a ← parseUdtaR h.size; pure { s with udta := some a }
  else do skipContentR h; pure s

/-- `Moov::parse_atom` (src/atom/moov.rs:14-36). -/
def parseMoovR (size : Size) : R Moov := loopR size.contentLen moovHandleR {} 0

/-- The loop of `read_tag_from` (src/atom/mod.rs:303-324), left at the first `moov`. -/
def topWalkR (len : Nat) : Nat → Nat → R Moov
  | 0, _ => outOfFuelR
  | f+1, parsed =>
    if parsed ≥ len then failR (.atomNotFound MOVIE)
    else do
      let head ← parseHeadR
      if head.fourcc = MOVIE then parseMoovR head.size
      else do
        skipContentR head
        let parsed' ← (addU parsed head.size.len).r
        topWalkR len f parsed'

/-- `read_tag_from` (src/atom/mod.rs:299-353). -/
def readTagR : R Tag := do
  let ftyp ← parseFtypR
  let len ← remainingStreamLenR
  let f ← getFuelR
  let moov ← topWalkR len f 0
  pure (mkTag ftyp moov)

/-! ### `FindAtom` -/

/-- `find_atom` of the leaf atoms `stco`, `co64`, `hdlr`, `ilst`, `mdat` (src/atom/stco.rs:59-67,
src/atom/co64.rs:59-67, src/atom/hdlr.rs:54-62, src/atom/ilst.rs:90-98, src/atom/mdat.rs:21-29). -/
def findLeafR (size : Size) : R AtomBounds := do
  let bounds ← findBoundsR size
  seekToEndR bounds
  pure bounds

/-- `Stbl::find_atom` (src/atom/stbl.rs:42-67). -/
def findStblR (size : Size) : R StblBounds := do
  let bounds ← findBoundsR size
  loopR size.contentLen (fun (s : StblBounds) h =>
    if h.fourcc = SAMPLE_TABLE_CHUNK_OFFSET then do
      let a ← findLeafR h.size; pure { s with stco := some a }
    else if h.fourcc = SAMPLE_TABLE_CHUNK_OFFSET_64 then do
      let a ← findLeafR h.size; pure { s with co64 := some a }
    else do skipContentR h; pure s) { bounds } 0

/-- `Minf::find_atom` (src/atom/minf.rs:39-62); only `stbl` of the bounds is ever used
(src/atom/mod.rs:460-462), so the own bounds of `minf`, `mdia` and `trak` are computed and dropped. -/
def findMinfR (size : Size) : R (Option StblBounds) := do
  let _ ← findBoundsR size
  loopR size.contentLen (fun s h =>
    if h.fourcc = SAMPLE_TABLE then do let a ← findStblR h.size; pure (some a)
    else do skipContentR h; pure s) none 0

/-- `Mdia::find_atom` (src/atom/mdia.rs:39-62). -/
def findMdiaR (size : Size) : R (Option (Option StblBounds)) := do
  let _ ← findBoundsR size
  loopR size.contentLen (fun s h =>
    if h.fourcc = MEDIA_INFORMATION then do let a ← findMinfR h.size; pure (some a)
    else do skipContentR h; pure s) none 0

/-- `Trak::find_atom` (src/atom/trak.rs:39-62). -/
def findTrakR (size : Size) : R (Option (Option (Option StblBounds))) := do
  let _ ← findBoundsR size
  loopR size.contentLen (fun s h =>
    if h.fourcc = MEDIA then do let a ← findMdiaR h.size; pure (some a)
    else do skipContentR h; pure s) none 0

/-- `Meta::find_atom` (src/atom/meta.rs:91-125). -/
def findMetaR (size : Size) : R MetaBounds := do
  let bounds ← findBoundsR size
  let (version, _) ← parseFullHeadR
  if version ≠ 0 then failR (.unknownVersion version)
  else
    loopR size.contentLen (fun (s : MetaBounds) h =>
      if h.fourcc = HANDLER_REFERENCE then do
        let a ← findLeafR h.size; pure { s with hdlr := some a }
      else if h.fourcc = ITEM_LIST then do
        let a ← findLeafR h.size; pure { s with ilst := some a }
      else do skipContentR h; pure s) { bounds } 4

/-- `Udta::find_atom` (src/atom/udta.rs:61-84). -/
def findUdtaR (size : Size) : R UdtaBounds := do
  let bounds ← findBoundsR size
  loopR size.contentLen (fun (s : UdtaBounds) h =>
    if h.fourcc = METADATA then do let a ← findMetaR h.size; pure { s with meta? := some a }
    else do skipContentR h; pure s) { bounds } 0

/-- `Moov::find_atom` (src/atom/moov.rs:66-91). -/
def findMoovR (size : Size) : R MoovBounds := do
  let bounds ← findBoundsR size
  loopR size.contentLen (fun (s : MoovBounds) h =>
    if h.fourcc = TRACK then do let a ← findTrakR h.size; pure { s with trak := s.trak ++ [a] }
    else if h.fourcc = USER_DATA then do let a ← findUdtaR h.size; pure { s with udta := some a }
    else do skipContentR h; pure s) { bounds } 0

/-- The search phase of `write_tag_to` (src/atom/mod.rs:360-387): the position of the last `mdat`
(0 if there is none) and the bounds of the last `moov`. -/
def findTopR : R (Nat × MoovBounds) := do
  let _ ← parseFtypR
  let len ← remainingStreamLenR
  let s ← loopR (pure len) (fun (s : TopBounds) h =>
    if h.fourcc = MOVIE then do let a ← findMoovR h.size; pure { s with moov := some a }
    else if h.fourcc = MEDIA_DATA then do let a ← findLeafR h.size; pure { s with mdat := some a }
    else do skipContentR h; pure s) {} 0
  let mdatPos := match s.mdat with
    | some b => b.pos
    | none => 0
  match s.moov with
  | some m => pure (mdatPos, m)
  | none => failR (.atomNotFound MOVIE)

/-- The loop reading a chunk offset table (src/atom/stco.rs:32-35, src/atom/co64.rs:32-35). -/
def readTableR (width : Nat) : Nat → R (List Nat)
  | 0 => pure []
  | n+1 => do
    let b ← readExactR width
    let rest ← readTableR width n
    pure (beNat b :: rest)

/-- `Stco::parse_atom` (src/atom/stco.rs:16-45) and `Co64::parse_atom` (src/atom/co64.rs:16-45),
which differ only in the width of the entries: position of the table and its entries.
The product cannot overflow: there are less than 2^32 entries. -/
def parseTableR (width : Nat) (size : Size) : R (Nat × List Nat) := do
  let (version, _) ← parseFullHeadR
  if version = 0 then do
    let entries ← readU32R
    let content ← size.contentLen.r
    if 8 + width * entries ≠ content then failR .parsing
    else do
      let tablePos ← tellR
      askR (width * entries)
      let offsets ← readTableR width entries
      pure (tablePos, offsets)
  else failR (.unknownVersion version)

/-! ### The reading part of `write_tag_to` -/

/-- Search phase, plan and reading of the data to be moved (src/atom/mod.rs:357-454). -/
def preparePhaseR (atoms : List AtomData) : R (Nat × MoovBounds × Plan × Nat × Bytes) := do
  let (mdatPos, moov) ← findTopR
  let p ← (mkPlan moov atoms).r
  let oldLen ← seekEndR
  let movedLen ← (subU oldLen p.movedDataStart).r
  allocR movedLen
  seekStartR p.movedDataStart
  let moved ← readToEndR
  pure (mdatPos, moov, p, oldLen, moved)

/-- `Tag::read_from` (src/tag/mod.rs:93-95) on a reader with content `F` positioned at `pos` that behaves as in `c`: the
outcome, and the final state of the reader. -/
def readTagVia (c : Sched) (e : Env) (F : Bytes) (pos : Nat) : Out Tag × RSt := readTagR c e F { pos := pos }

/-- `write_tag_to` (src/atom/mod.rs:356-526), searching the file and reading the data to be moved with a reader that
behaves as in `c`; the calls of the writing phase fail as in `calls` (see `Faults`). The state of the reader is that at the end of this
phase. -/
def writeTagVia (c : Sched) (calls : Nat → Option Nat) (e : Env) (F : Bytes) (pos : Nat) (atoms : List AtomData) :
    Out Unit × FSt × RSt :=
  let fl : Faults := ⟨calls, false⟩
  let s0 : FSt := { file := F, cur := e.rcur 0 }
  match preparePhaseR atoms c e F { pos := pos } with
  | (.ok (mdatPos, moov, p, oldLen, moved), r) =>
    let w := fWritePhase mdatPos moov p oldLen moved atoms fl e s0
    (w.1, fDrop fl e w.2, r)
  | (.err k, r) => (.err k, s0, r)
  | (.panic, r) => (.panic, s0, r)
  | (.fuel, r) => (.fuel, s0, r)

end Mp4
