import Verif.Model.Reader
import Verif.Model.Path
/-
Reading through std's `BufReader`, as `Tag::read_from_path` (src/tag/mod.rs:99) and `write_tag_to` (src/atom/mod.rs:357)
do, on top of the arbitrary reader of Model/Reader.lean.

`BufReader` is modelled after std: `read` passes large requests on if its buffer is empty, `read_exact` takes the bytes
from the buffer if there are enough, `read_to_end` empties the buffer first, `seek` discards the buffer, and
`SeekFrom::Current` is corrected by the bytes that are still in the buffer.

The functions are those of Model/Reader.lean with other primitives.
-/
namespace Mp4

/-- State of a `BufReader`: the cursor of the reader inside, the bytes in the buffer that were not consumed yet, the number
of calls of the reader inside so far; `hit` and `mem` as in `RSt`. -/
structure BSt where
  cur : Nat
  buf : Bytes := []
  tick : Nat := 0
  hit : Bool := false
  mem : List Nat := []
deriving DecidableEq, Repr

/-- The position as seen from the outside. -/
def BSt.pos (s : BSt) : Nat := s.cur - s.buf.length

/-- A computation reading through a `BufReader` of the given capacity from a reader with content `F`. -/
def B (α : Type) := Sched → Nat → Env → Bytes → BSt → Out α × BSt

/-- `m? ; f` -/
def B.bind {α β} (m : B α) (f : α → B β) : B β := fun c cap e F s =>
  match m c cap e F s with
  | (.ok a, s') => f a c cap e F s'
  | (.err k, s') => (.err k, s')
  | (.panic, s') => (.panic, s')
  | (.fuel, s') => (.fuel, s')

instance : Monad B where
  pure a := fun _ _ _ _ s => (.ok a, s)
  bind := B.bind

/-- Arithmetic. -/
def E.b {α} (m : E α) : B α := fun _ _ e _ s => (m e, s)

/-- `return Err(..)`. -/
def failBuf {α} (k : ErrKind) : B α := fun _ _ _ _ s => (.err k, s)

/-- A loop that exceeded the allowed number of iterations. -/
def outOfFuelBuf {α} : B α := fun _ _ _ _ s => (.fuel, s)

/-- The number of iterations each loop may take. -/
def getFuelBuf : B Nat := fun _ _ e _ s => (.ok e.fuel, s)

/-- See `askR`. -/
def askBuf (n : Nat) : B Unit := fun _ _ _ _ s => (.ok (), { s with mem := n :: s.mem })

/-- See `allocR`. -/
def allocBuf (n : Nat) : B Unit := do askBuf n; (allocU8 n).b

/-- The result of one `read` call. -/
inductive Got where
  | bytes (b : Bytes)
  | intr
  | err

/-- `read` of the reader inside into a buffer of `n` bytes. -/
def innerRead (c : Sched) (F : Bytes) (s : BSt) (n : Nat) : Got × BSt :=
  match c s.tick with
  | .give k =>
    let b := (F.drop s.cur).take (min (k + 1) n)
    (.bytes b, { s with cur := s.cur + b.length, tick := s.tick + 1 })
  | .intr => (.intr, { s with tick := s.tick + 1 })
  | .err => (.err, { s with tick := s.tick + 1 })

/-- `BufReader::read` into a buffer of `n` bytes: if the own buffer is empty, a request of at least its capacity is passed
on, otherwise the buffer is filled first (`fill_buf`). -/
def bufRead (c : Sched) (cap : Nat) (F : Bytes) (s : BSt) (n : Nat) : Got × BSt :=
  if s.buf.isEmpty then
    if cap ≤ n then innerRead c F s n
    else
      match innerRead c F s cap with
      | (.bytes b, s') => (.bytes (b.take n), { s' with buf := b.drop n })
      | r => r
  else (.bytes (s.buf.take n), { s with buf := s.buf.drop n })

/-- `std::io::default_read_exact` on a `BufReader`. -/
def readExactLoopBuf : Nat → Nat → Bytes → B Bytes
  | 0, _, _ => outOfFuelBuf
  | f+1, n, acc => fun c cap e F s =>
    if n = 0 then (.ok acc, s)
    else
      match bufRead c cap F s n with
      | (.bytes b, s') =>
        if b.isEmpty then (.err .io, s') else readExactLoopBuf f (n - b.length) (acc ++ b) c cap e F s'
      | (.intr, s') => readExactLoopBuf f n acc c cap e F s'
      | (.err, s') => (.err .io, { s' with hit := true })

/-- `BufReader::read_exact` on a buffer of `n` bytes. -/
def readExactBuf (n : Nat) : B Bytes := fun c cap e F s =>
  if n ≤ s.buf.length then (.ok (s.buf.take n), { s with buf := s.buf.drop n })
  else readExactLoopBuf e.fuel n [] c cap e F s

/-- `std::io::default_read_to_end` on the reader inside. -/
def readToEndLoopBuf : Nat → Bytes → B Bytes
  | 0, _ => outOfFuelBuf
  | f+1, acc => fun c cap e F s =>
    match c s.tick with
    | .give k =>
      let b := (F.drop s.cur).take (k + 1)
      let s' := { s with cur := s.cur + b.length, tick := s.tick + 1 }
      if b.isEmpty then (.ok acc, s') else readToEndLoopBuf f (acc ++ b) c cap e F s'
    | .intr => readToEndLoopBuf f acc c cap e F { s with tick := s.tick + 1 }
    | .err => (.err .io, { s with tick := s.tick + 1, hit := true })

/-- `BufReader::read_to_end`: what is in the buffer, then the rest from the reader inside. The bytes in the buffer count as
one iteration. -/
def readToEndBuf : B Bytes := fun c cap e F s =>
  if s.buf.isEmpty then readToEndLoopBuf e.fuel [] c cap e F s
  else readToEndLoopBuf (e.fuel - 1) s.buf c cap e F { s with buf := [] }

/-- `seek` of the reader inside to the position `p`, discarding the buffer if this succeeds. -/
def innerSeek (p : Int) : B Nat := fun c _ e _ s =>
  match c s.tick with
  | .give _ =>
    if 0 ≤ p ∧ p ≤ e.maxPos then (.ok p.toNat, { s with cur := p.toNat, buf := [], tick := s.tick + 1 })
    else (.err .io, { s with tick := s.tick + 1 })
  | _ => (.err .io, { s with tick := s.tick + 1, hit := true })

/-- `BufReader::seek(SeekFrom::Current(n))`: the reader inside is ahead by what is in the buffer. If the difference does not
fit into 64 bits, there are two calls. -/
def seekCurBuf (n : Int) : B Unit := fun c cap e F s =>
  if -2^63 ≤ n - s.buf.length then (do let _ ← innerSeek (s.cur + (n - s.buf.length)); pure ()) c cap e F s
  else (do let p ← innerSeek (s.cur - s.buf.length); let _ ← innerSeek (p + n); pure ()) c cap e F s

/-- `BufReader::seek(SeekFrom::Start(n))`. -/
def seekStartBuf (n : Nat) : B Unit := do let _ ← innerSeek n; pure ()

/-- `seek` of the reader inside to a position that is in range, discarding the buffer if this succeeds. -/
def innerSeekIn (p : Nat) : B Nat := fun c _ _ _ s =>
  match c s.tick with
  | .give _ => (.ok p, { s with cur := p, buf := [], tick := s.tick + 1 })
  | _ => (.err .io, { s with tick := s.tick + 1, hit := true })

/-- `BufReader::seek(SeekFrom::Current(0))`, the current position; the buffer is discarded. -/
def tellBuf : B Nat := fun c cap e F s => innerSeekIn (s.cur - s.buf.length) c cap e F s

/-- `BufReader::seek(SeekFrom::End(0))`, returns the length and moves there. -/
def seekEndBuf : B Nat := fun c cap e F s => innerSeekIn F.length c cap e F s

/-! ### `ReadData` (src/atom/data.rs:437-491) -/

/-- `read_u8` (src/atom/data.rs:439-443). -/
def readU8Buf : B UInt8 := do
  let b ← readExactBuf 1
  pure (b.headD 0)

/-- `read_u16` (src/atom/data.rs:446-450). -/
def readU16Buf : B Nat := do
  let b ← readExactBuf 2
  pure (beNat b)

/-- `read_u32` (src/atom/data.rs:453-457). -/
def readU32Buf : B Nat := do
  let b ← readExactBuf 4
  pure (beNat b)

/-- `read_u64` (src/atom/data.rs:460-464). -/
def readU64Buf : B Nat := do
  let b ← readExactBuf 8
  pure (beNat b)

/-- `read_u8_vec` (src/atom/data.rs:467-471). -/
def readU8VecBuf (len : Nat) : B Bytes := do
  allocBuf len
  readExactBuf len

/-- `read_utf8` (src/atom/data.rs:474-478). -/
def readUtf8Buf (len : Nat) : B Str := do
  let b ← readU8VecBuf len
  match utf8Dec b with
  | some s => pure s
  | none => failBuf .utf8StringDecoding

/-- `read_utf16` (src/atom/data.rs:481-490). -/
def readUtf16Buf (len : Nat) : B Str := do
  allocBuf len
  let b ← readExactBuf len
  match utf16Dec (units16 b) with
  | some s => pure s
  | none => failBuf .utf16StringDecoding

/-- `remaining_stream_len` (src/atom/data.rs:496-504). -/
def remainingStreamLenBuf : B Nat := do
  let current ← tellBuf
  let complete ← seekEndBuf
  let len ← (subU complete current).b
  seekStartBuf current
  pure len

/-- `Data::parse` (src/atom/data.rs:418-434, codes 8-36). -/
def Data.parseBuf (datatype len : Nat) : B Data :=
  match datatype with
  | 0 => do let v ← readU8VecBuf len; pure (.reserved v)
  | 1 => do let s ← readUtf8Buf len; pure (.utf8 s)
  | 2 => do let s ← readUtf16Buf len; pure (.utf16 s)
  | 13 => do let v ← readU8VecBuf len; pure (.jpeg v)
  | 14 => do let v ← readU8VecBuf len; pure (.png v)
  | 21 => do let v ← readU8VecBuf len; pure (.beSigned v)
  | 27 => do let v ← readU8VecBuf len; pure (.bmp v)
  | t => failBuf (.unknownDataType t)

/-! ### Heads and the loop of container atoms (src/atom/head.rs) -/

/-- `parse_head` (src/atom/head.rs:101-135). -/
def parseHeadBuf : B Head := do
  let len ← readU32Buf
  let ident ← readExactBuf 4
  let ident : Fourcc := ⟨ident.getD 0 0, ident.getD 1 0, ident.getD 2 0, ident.getD 3 0⟩
  if len = 1 then do
    let l ← readU64Buf
    pure ⟨⟨true, l⟩, ident⟩
  else if len < 8 then failBuf .parsing
  else pure ⟨⟨false, len⟩, ident⟩

/-- `parse_full_head` (src/atom/head.rs:155-175). -/
def parseFullHeadBuf : B (UInt8 × Bytes) := do
  let version ← readU8Buf
  let flags ← readExactBuf 3
  pure (version, flags)

/-- `find_bounds` (src/atom/head.rs:215-218). -/
def findBoundsBuf (size : Size) : B AtomBounds := do
  let cur ← tellBuf
  let pos ← (subU cur size.headLen).b
  pure ⟨pos, size⟩

/-- `seek_to_end` (src/atom/head.rs:220-225). -/
def seekToEndBuf (b : AtomBounds) : B Unit := do
  let current ← tellBuf
  let end_ ← b.end_.b
  let diff ← (subU end_ current).b
  seekCurBuf (asI64 diff)

/-- `reader.seek(SeekFrom::Current(head.content_len() as i64))`, the default branch of every
container loop (e.g. src/atom/moov.rs:26-28). -/
def skipContentBuf (h : Head) : B Unit := do
  let n ← h.size.contentLen.b
  seekCurBuf (asI64 n)

/-- The loop of every container atom (e.g. src/atom/moov.rs:19-32):
`while parsed_bytes < limit { let head = parse_head(reader)?; <handle>; parsed_bytes += head.len() }`.
`limit` is evaluated on every iteration; `handle` is the `match` on the identifier, updating the
local variables of the function (`σ`). The first argument bounds the iterations. -/
def walkBuf {σ : Type} (limit : E Nat) (handle : σ → Head → B σ) : Nat → σ → Nat → B σ
  | 0, _, _ => outOfFuelBuf
  | f+1, s, parsed => do
    let lim ← limit.b
    if parsed < lim then do
      let head ← parseHeadBuf
      let s' ← handle s head
      let parsed' ← (addU parsed head.size.len).b
      walkBuf limit handle f s' parsed'
    else pure s

/-- `walk` with the iteration bound of the environment. -/
def loopBuf {σ : Type} (limit : E Nat) (handle : σ → Head → B σ) (s : σ) (parsed : Nat) : B σ := do
  let f ← getFuelBuf
  walkBuf limit handle f s parsed

/-! ### `ParseAtom` and `read_tag_from` -/

/-- `Ftyp::parse` (src/atom/ftyp.rs:7-16). -/
def parseFtypBuf : B Str := do
  let head ← parseHeadBuf
  if head.fourcc ≠ FILETYPE then failBuf .noTag
  else do
    let n ← head.size.contentLen.b
    readUtf8Buf n

/-- `Mvhd::parse_atom` (src/atom/mvhd.rs:16-65); the duration in nanoseconds. -/
def parseMvhdBuf (size : Size) : B Nat := do
  let bounds ← findBoundsBuf size
  let (version, _) ← parseFullHeadBuf
  if version = 0 then do
    seekCurBuf 8
    let timescale ← readU32Buf
    let duration ← readU32Buf
    let nanos ← (mulU duration 1000000000).b
    let d ← (divU nanos timescale).b
    seekToEndBuf bounds
    pure d
  else if version = 1 then do
    seekCurBuf 16
    let timescale ← readU32Buf
    let duration ← readU64Buf
    let nanos ← (mulU duration 1000000000).b
    let d ← (divU nanos timescale).b
    seekToEndBuf bounds
    pure d
  else failBuf (.unknownVersion version)

/-- The loop of `parse_desc_head` (src/atom/mp4a.rs:231-240); `k` is `5 - head_len`.
`(len << 7) | (b & 0x7F)` is `len * 128 + b % 128` because at most 28 bits are used;
`b & 0x80 == 0` is `b < 128`. -/
def descHeadLoopBuf : Nat → Nat → Nat → B (Nat × Nat)
  | 0, headLen, len => pure (headLen, len)
  | k+1, headLen, len => do
    let b ← readU8Buf
    let len := len * 128 + b.toNat % 128
    let headLen := headLen + 1
    if b.toNat < 128 then pure (headLen, len) else descHeadLoopBuf k headLen len

/-- `parse_desc_head` (src/atom/mp4a.rs:228-243): tag, length of the head, length of the body. -/
def parseDescHeadBuf : B (UInt8 × Nat × Nat) := do
  let tag ← readU8Buf
  let (headLen, len) ← descHeadLoopBuf 4 1 0
  pure (tag, headLen, len)

/-- `parse_ds_desc` (src/atom/mp4a.rs:215-226). Shifts and masks are division and remainder. -/
def parseDsDescBuf (info : Mp4a) (len : Nat) : B Mp4a := do
  let num ← readU16Buf
  let info := { info with
    sampleRate := SampleRate.ofCode (num / 128 % 16)
    channelConfig := ChannelConfig.ofCode (num / 8 % 16) }
  let n ← (subU len 2).b
  seekCurBuf (asI64 n)
  pure info

/-- The loops of `parse_dc_desc` and `parse_es_desc` (src/atom/mp4a.rs:153-165, 188-200):
`while parsed_bytes < len { parse_desc_head; match tag { wanted => .., _ => skip }; parsed += .. }`. -/
def descWalkBuf (wanted : UInt8) (handle : Mp4a → Nat → B Mp4a) (limit : Nat) :
    Nat → Mp4a → Nat → B Mp4a
  | 0, _, _ => outOfFuelBuf
  | f+1, info, parsed =>
    if parsed < limit then do
      let (tag, headLen, descLen) ← parseDescHeadBuf
      let info' ← (if tag = wanted then handle info descLen
                   else do seekCurBuf (asI64 descLen); pure info)
      let step ← (addU headLen descLen).b
      let parsed' ← (addU parsed step).b
      descWalkBuf wanted handle limit f info' parsed'
    else pure info

/-- `parse_dc_desc` (src/atom/mp4a.rs:183-203). -/
def parseDcDescBuf (info : Mp4a) (len : Nat) : B Mp4a := do
  seekCurBuf 5
  let mx ← readU32Buf
  let avg ← readU32Buf
  let f ← getFuelBuf
  descWalkBuf 0x05 parseDsDescBuf len f { info with maxBitrate := some mx, avgBitrate := some avg } 13

/-- `parse_es_desc` (src/atom/mp4a.rs:150-168). -/
def parseEsDescBuf (info : Mp4a) (len : Nat) : B Mp4a := do
  seekCurBuf 3
  let f ← getFuelBuf
  descWalkBuf 0x04 parseDcDescBuf len f info 3

/-- `parse_esds` (src/atom/mp4a.rs:112-134). -/
def parseEsdsBuf (info : Mp4a) (size : Size) : B Mp4a := do
  let (version, _) ← parseFullHeadBuf
  if version ≠ 0 then failBuf (.unknownVersion version)
  else do
    let (tag, headLen, descLen) ← parseDescHeadBuf
    if tag ≠ 0x03 then failBuf (.descriptorNotFound 0x03)
    else do
      let n ← size.contentLen.b
      let n ← (subU n 4).b
      let maxLen ← (subU n headLen).b
      parseEsDescBuf info (min descLen maxLen)

/-- `Mp4a::parse_atom` (src/atom/mp4a.rs:73-94). -/
def parseMp4aBuf (size : Size) : B Mp4a := do
  let bounds ← findBoundsBuf size
  seekCurBuf 28
  let head ← parseHeadBuf
  if head.fourcc ≠ ELEMENTARY_STREAM_DESCRIPTION then
    failBuf (.atomNotFound ELEMENTARY_STREAM_DESCRIPTION)
  else do
    let info ← parseEsdsBuf {} head.size
    seekToEndBuf bounds
    pure info

/-- `Stsd::parse_atom` (src/atom/stsd.rs:12-43); result: `stsd.mp4a`. -/
def parseStsdBuf (size : Size) : B (Option Mp4a) := do
  let (version, _) ← parseFullHeadBuf
  if version ≠ 0 then failBuf (.unknownVersion version)
  else do
    seekCurBuf 4
    loopBuf size.contentLen (fun s h =>
      if h.fourcc = MP4_AUDIO then do let a ← parseMp4aBuf h.size; pure (some a)
      else do skipContentBuf h; pure s) none 8

/-- `Stbl::parse_atom` (src/atom/stbl.rs:12-34); result: `stbl.stsd` as the optional `mp4a`
inside. -/
def parseStblBuf (size : Size) : B (Option (Option Mp4a)) :=
  loopBuf size.contentLen (fun s h =>
    if h.fourcc = SAMPLE_TABLE_SAMPLE_DESCRIPTION then do let a ← parseStsdBuf h.size; pure (some a)
    else do skipContentBuf h; pure s) none 0

/-- `Minf::parse_atom` (src/atom/minf.rs:12-32); result: `minf.stbl`. -/
def parseMinfBuf (size : Size) : B (Option (Option (Option Mp4a))) :=
  loopBuf size.contentLen (fun s h =>
    if h.fourcc = SAMPLE_TABLE then do let a ← parseStblBuf h.size; pure (some a)
    else do skipContentBuf h; pure s) none 0

/-- `Mdia::parse_atom` (src/atom/mdia.rs:12-32); result: `mdia.minf`. -/
def parseMdiaBuf (size : Size) : B (Option (Option (Option (Option Mp4a)))) :=
  loopBuf size.contentLen (fun s h =>
    if h.fourcc = MEDIA_INFORMATION then do let a ← parseMinfBuf h.size; pure (some a)
    else do skipContentBuf h; pure s) none 0

/-- `Trak::parse_atom` (src/atom/trak.rs:12-32). -/
def parseTrakBuf (size : Size) : B Trak :=
  loopBuf size.contentLen (fun s h =>
    if h.fourcc = MEDIA then do let a ← parseMdiaBuf h.size; pure (some a)
    else do skipContentBuf h; pure s) none 0

/-- The `match` in the loop of `AtomData::parse` (src/atom/mod.rs:198-240). -/
def itemHandleBuf (s : ItemSt) (h : Head) : B ItemSt :=
  if h.fourcc = DATA then do
    let (version, flags) ← parseFullHeadBuf
    if version ≠ 0 then failBuf (.unknownVersion version)
    else do
      let datatype := beNat flags
      seekCurBuf 4
      let n ← h.size.contentLen.b
      let n ← (subU n 8).b
      let d ← Data.parseBuf datatype n
      pure { s with data := s.data ++ [d] }
  else if h.fourcc = MEAN then do
    let (version, _) ← parseFullHeadBuf
    if version ≠ 0 then failBuf (.unknownVersion version)
    else do
      let n ← h.size.contentLen.b
      let n ← (subU n 4).b
      let m ← readUtf8Buf n
      pure { s with mean := some m }
  else if h.fourcc = NAME then do
    let (version, _) ← parseFullHeadBuf
    if version ≠ 0 then failBuf (.unknownVersion version)
    else do
      let n ← h.size.contentLen.b
      let n ← (subU n 4).b
      let m ← readUtf8Buf n
      pure { s with name := some m }
  else do
    skipContentBuf h
    pure s

/-- `AtomData::parse` (src/atom/mod.rs:189-258). -/
def parseItemBuf (parent : Fourcc) (len : Nat) : B AtomData := do
  let s ← loopBuf (pure len) itemHandleBuf {} 0
  if s.data.isEmpty then failBuf (.atomNotFound DATA)
  else pure ⟨itemIdent parent s.mean s.name, s.data⟩

/-- `Ilst::parse_atom` (src/atom/ilst.rs:24-52). -/
def parseIlstBuf (size : Size) : B (List AtomData) :=
  loopBuf size.contentLen (fun s h =>
    if h.fourcc = FREE then do skipContentBuf h; pure s
    else do
      let n ← h.size.contentLen.b
      let a ← parseItemBuf h.fourcc n
      pure (mergeItem s a)) [] 0

/-- `Meta::parse_atom` (src/atom/meta.rs:13-42); result: `meta.ilst`. -/
def parseMetaBuf (size : Size) : B (Option (List AtomData)) := do
  let (version, _) ← parseFullHeadBuf
  if version ≠ 0 then failBuf (.unknownVersion version)
  else
    loopBuf size.contentLen (fun s h =>
      if h.fourcc = ITEM_LIST then do let a ← parseIlstBuf h.size; pure (some a)
      else do skipContentBuf h; pure s) none 4

/-- `Udta::parse_atom` (src/atom/udta.rs:12-32); result: `udta.meta`. -/
def parseUdtaBuf (size : Size) : B (Option (Option (List AtomData))) :=
  loopBuf size.contentLen (fun s h =>
    if h.fourcc = METADATA then do let a ← parseMetaBuf h.size; pure (some a)
    else do skipContentBuf h; pure s) none 0

/-- The `match` in the loop of `Moov::parse_atom` (src/atom/moov.rs:22-29). -/
def moovHandleBuf (s : Moov) (h : Head) : B Moov :=
  if h.fourcc = MOVIE_HEADER then do let a ← parseMvhdBuf h.size; pure { s with mvhd := some a }
  else if h.fourcc = TRACK then do let a ← parseTrakBuf h.size; pure { s with trak := s.trak ++ [a] }
  else if h.fourcc = USER_DATA then do let a ← parseUdtaBuf h.size; pure { s with udta := some a }
  else do skipContentBuf h; pure s

/-- `Moov::parse_atom` (src/atom/moov.rs:14-36). -/
def parseMoovBuf (size : Size) : B Moov := loopBuf size.contentLen moovHandleBuf {} 0

/-- The loop of `read_tag_from` (src/atom/mod.rs:303-324), left at the first `moov`. -/
def topWalkBuf (len : Nat) : Nat → Nat → B Moov
  | 0, _ => outOfFuelBuf
  | f+1, parsed =>
    if parsed ≥ len then failBuf (.atomNotFound MOVIE)
    else do
      let head ← parseHeadBuf
      if head.fourcc = MOVIE then parseMoovBuf head.size
      else do
        skipContentBuf head
        let parsed' ← (addU parsed head.size.len).b
        topWalkBuf len f parsed'

/-- `read_tag_from` (src/atom/mod.rs:299-353). -/
def readTagBuf : B Tag := do
  let ftyp ← parseFtypBuf
  let len ← remainingStreamLenBuf
  let f ← getFuelBuf
  let moov ← topWalkBuf len f 0
  pure (mkTag ftyp moov)

/-! ### `FindAtom` -/

/-- `find_atom` of the leaf atoms `stco`, `co64`, `hdlr`, `ilst`, `mdat` (src/atom/stco.rs:59-67,
src/atom/co64.rs:59-67, src/atom/hdlr.rs:54-62, src/atom/ilst.rs:90-98, src/atom/mdat.rs:21-29). -/
def findLeafBuf (size : Size) : B AtomBounds := do
  let bounds ← findBoundsBuf size
  seekToEndBuf bounds
  pure bounds

/-- `Stbl::find_atom` (src/atom/stbl.rs:42-67). -/
def findStblBuf (size : Size) : B StblBounds := do
  let bounds ← findBoundsBuf size
  loopBuf size.contentLen (fun (s : StblBounds) h =>
    if h.fourcc = SAMPLE_TABLE_CHUNK_OFFSET then do
      let a ← findLeafBuf h.size; pure { s with stco := some a }
    else if h.fourcc = SAMPLE_TABLE_CHUNK_OFFSET_64 then do
      let a ← findLeafBuf h.size; pure { s with co64 := some a }
    else do skipContentBuf h; pure s) { bounds } 0

/-- `Minf::find_atom` (src/atom/minf.rs:39-62); only `stbl` of the bounds is ever used
(src/atom/mod.rs:460-462), so the own bounds of `minf`, `mdia` and `trak` are computed and dropped. -/
def findMinfBuf (size : Size) : B (Option StblBounds) := do
  let _ ← findBoundsBuf size
  loopBuf size.contentLen (fun s h =>
    if h.fourcc = SAMPLE_TABLE then do let a ← findStblBuf h.size; pure (some a)
    else do skipContentBuf h; pure s) none 0

/-- `Mdia::find_atom` (src/atom/mdia.rs:39-62). -/
def findMdiaBuf (size : Size) : B (Option (Option StblBounds)) := do
  let _ ← findBoundsBuf size
  loopBuf size.contentLen (fun s h =>
    if h.fourcc = MEDIA_INFORMATION then do let a ← findMinfBuf h.size; pure (some a)
    else do skipContentBuf h; pure s) none 0

/-- `Trak::find_atom` (src/atom/trak.rs:39-62). -/
def findTrakBuf (size : Size) : B (Option (Option (Option StblBounds))) := do
  let _ ← findBoundsBuf size
  loopBuf size.contentLen (fun s h =>
    if h.fourcc = MEDIA then do let a ← findMdiaBuf h.size; pure (some a)
    else do skipContentBuf h; pure s) none 0

/-- `Meta::find_atom` (src/atom/meta.rs:91-125). -/
def findMetaBuf (size : Size) : B MetaBounds := do
  let bounds ← findBoundsBuf size
  let (version, _) ← parseFullHeadBuf
  if version ≠ 0 then failBuf (.unknownVersion version)
  else
    loopBuf size.contentLen (fun (s : MetaBounds) h =>
      if h.fourcc = HANDLER_REFERENCE then do
        let a ← findLeafBuf h.size; pure { s with hdlr := some a }
      else if h.fourcc = ITEM_LIST then do
        let a ← findLeafBuf h.size; pure { s with ilst := some a }
      else do skipContentBuf h; pure s) { bounds } 4

/-- `Udta::find_atom` (src/atom/udta.rs:61-84). -/
def findUdtaBuf (size : Size) : B UdtaBounds := do
  let bounds ← findBoundsBuf size
  loopBuf size.contentLen (fun (s : UdtaBounds) h =>
    if h.fourcc = METADATA then do let a ← findMetaBuf h.size; pure { s with meta? := some a }
    else do skipContentBuf h; pure s) { bounds } 0

/-- `Moov::find_atom` (src/atom/moov.rs:66-91). -/
def findMoovBuf (size : Size) : B MoovBounds := do
  let bounds ← findBoundsBuf size
  loopBuf size.contentLen (fun (s : MoovBounds) h =>
    if h.fourcc = TRACK then do let a ← findTrakBuf h.size; pure { s with trak := s.trak ++ [a] }
    else if h.fourcc = USER_DATA then do let a ← findUdtaBuf h.size; pure { s with udta := some a }
    else do skipContentBuf h; pure s) { bounds } 0

/-- The search phase of `write_tag_to` (src/atom/mod.rs:360-387): the position of the last `mdat`
(0 if there is none) and the bounds of the last `moov`. -/
def findTopBuf : B (Nat × MoovBounds) := do
  let _ ← parseFtypBuf
  let len ← remainingStreamLenBuf
  let s ← loopBuf (pure len) (fun (s : TopBounds) h =>
    if h.fourcc = MOVIE then do let a ← findMoovBuf h.size; pure { s with moov := some a }
    else if h.fourcc = MEDIA_DATA then do let a ← findLeafBuf h.size; pure { s with mdat := some a }
    else do skipContentBuf h; pure s) {} 0
  let mdatPos := match s.mdat with
    | some b => b.pos
    | none => 0
  match s.moov with
  | some m => pure (mdatPos, m)
  | none => failBuf (.atomNotFound MOVIE)

/-- The loop reading a chunk offset table (src/atom/stco.rs:32-35, src/atom/co64.rs:32-35). -/
def readTableBuf (width : Nat) : Nat → B (List Nat)
  | 0 => pure []
  | n+1 => do
    let b ← readExactBuf width
    let rest ← readTableBuf width n
    pure (beNat b :: rest)

/-- `Stco::parse_atom` (src/atom/stco.rs:16-45) and `Co64::parse_atom` (src/atom/co64.rs:16-45),
which differ only in the width of the entries: position of the table and its entries.
The product cannot overflow: there are less than 2^32 entries. -/
def parseTableBuf (width : Nat) (size : Size) : B (Nat × List Nat) := do
  let (version, _) ← parseFullHeadBuf
  if version = 0 then do
    let entries ← readU32Buf
    let content ← size.contentLen.b
    if 8 + width * entries ≠ content then failBuf .parsing
    else do
      let tablePos ← tellBuf
      askBuf (width * entries)
      let offsets ← readTableBuf width entries
      pure (tablePos, offsets)
  else failBuf (.unknownVersion version)

/-! ### The reading part of `write_tag_to` -/

/-- Search phase, plan and reading of the data to be moved (src/atom/mod.rs:357-454). -/
def preparePhaseBuf (atoms : List AtomData) : B (Nat × MoovBounds × Plan × Nat × Bytes) := do
  let (mdatPos, moov) ← findTopBuf
  let p ← (mkPlan moov atoms).b
  let oldLen ← seekEndBuf
  let movedLen ← (subU oldLen p.movedDataStart).b
  allocBuf movedLen
  seekStartBuf p.movedDataStart
  let moved ← readToEndBuf
  pure (mdatPos, moov, p, oldLen, moved)

/-- `Tag::read_from_path` (src/tag/mod.rs:98-101): `File::open`, then reading from the start through a `BufReader` of capacity
`cap` (8 KiB in std); the calls of the file behave as in `c`. -/
def readFromPathBuf (c : Sched) (cap : Nat) (e : Env) (fs : Fs) (p : String) : Out Tag :=
  match fs.node p with
  | some n => if fs.readable n then (readTagBuf c cap e (fs.data n) { cur := 0 }).1 else .err .io
  | none => .err .io

end Mp4
