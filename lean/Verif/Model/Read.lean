import Verif.Model.Head
/-
The reading side: the `ParseAtom` implementations and `read_tag_from`.

The wrappers `ParseAtom::parse` and `FindAtom::find` (src/atom/mod.rs:88-116) only edit the error
description; they are modelled in Model/Describe.lean, together with the descriptions.
-/
namespace Mp4

/-- src/atom/mod.rs:153-160 -/
structure AtomData where
  ident : DataIdent
  data : List Data
deriving DecidableEq, Repr

/-- src/tag/mod.rs:21-30 -/
structure Tag where
  ftyp : Str := []
  info : AudioInfo := {}
  atoms : List AtomData := []
deriving DecidableEq, Repr

/-- `Ftyp::parse` (src/atom/ftyp.rs:7-16). -/
def parseFtyp : P Str := do
  let head ← parseHead
  if head.fourcc ≠ FILETYPE then fail .noTag
  else do
    let n ← head.size.contentLen.p
    readUtf8 n

/-- `Mvhd::parse_atom` (src/atom/mvhd.rs:16-65); the duration in nanoseconds. -/
def parseMvhd (size : Size) : P Nat := do
  let bounds ← findBounds size
  let (version, _) ← parseFullHead
  if version = 0 then do
    seekCur 8
    let timescale ← readU32
    let duration ← readU32
    let nanos ← (mulU duration 1000000000).p
    let d ← (divU nanos timescale).p
    seekToEnd bounds
    pure d
  else if version = 1 then do
    seekCur 16
    let timescale ← readU32
    let duration ← readU64
    let nanos ← (mulU duration 1000000000).p
    let d ← (divU nanos timescale).p
    seekToEnd bounds
    pure d
  else fail (.unknownVersion version)

/-- src/atom/mp4a.rs:61-67 -/
structure Mp4a where
  channelConfig : Option ChannelConfig := none
  sampleRate : Option SampleRate := none
  maxBitrate : Option Nat := none
  avgBitrate : Option Nat := none
deriving DecidableEq, Repr

/-- The loop of `parse_desc_head` (src/atom/mp4a.rs:231-240); `k` is `5 - head_len`.
`(len << 7) | (b & 0x7F)` is `len * 128 + b % 128` because at most 28 bits are used;
`b & 0x80 == 0` is `b < 128`. -/
def descHeadLoop : Nat → Nat → Nat → P (Nat × Nat)
  | 0, headLen, len => pure (headLen, len)
  | k+1, headLen, len => do
    let b ← readU8
    let len := len * 128 + b.toNat % 128
    let headLen := headLen + 1
    if b.toNat < 128 then pure (headLen, len) else descHeadLoop k headLen len

/-- `parse_desc_head` (src/atom/mp4a.rs:228-243): tag, length of the head, length of the body. -/
def parseDescHead : P (UInt8 × Nat × Nat) := do
  let tag ← readU8
  let (headLen, len) ← descHeadLoop 4 1 0
  pure (tag, headLen, len)

/-- `parse_ds_desc` (src/atom/mp4a.rs:215-226). Shifts and masks are division and remainder. -/
def parseDsDesc (info : Mp4a) (len : Nat) : P Mp4a := do
  let num ← readU16
  let info := { info with
    sampleRate := SampleRate.ofCode (num / 128 % 16)
    channelConfig := ChannelConfig.ofCode (num / 8 % 16) }
  let n ← (subU len 2).p
  seekCur (asI64 n)
  pure info

/-- The loops of `parse_dc_desc` and `parse_es_desc` (src/atom/mp4a.rs:153-165, 188-200):
`while parsed_bytes < len { parse_desc_head; match tag { wanted => .., _ => skip }; parsed += .. }`. -/
def descWalk (wanted : UInt8) (handle : Mp4a → Nat → P Mp4a) (limit : Nat) :
    Nat → Mp4a → Nat → P Mp4a
  | 0, _, _ => outOfFuel
  | f+1, info, parsed =>
    if parsed < limit then do
      let (tag, headLen, descLen) ← parseDescHead
      let info' ← (if tag = wanted then handle info descLen
                   else do seekCur (asI64 descLen); pure info)
      let step ← (addU headLen descLen).p
      let parsed' ← (addU parsed step).p
      descWalk wanted handle limit f info' parsed'
    else pure info

/-- `parse_dc_desc` (src/atom/mp4a.rs:183-203). -/
def parseDcDesc (info : Mp4a) (len : Nat) : P Mp4a := do
  seekCur 5
  let mx ← readU32
  let avg ← readU32
  let f ← getFuel
  descWalk 0x05 parseDsDesc len f { info with maxBitrate := some mx, avgBitrate := some avg } 13

/-- `parse_es_desc` (src/atom/mp4a.rs:150-168). -/
def parseEsDesc (info : Mp4a) (len : Nat) : P Mp4a := do
  seekCur 3
  let f ← getFuel
  descWalk 0x04 parseDcDesc len f info 3

/-- `parse_esds` (src/atom/mp4a.rs:112-134). -/
def parseEsds (info : Mp4a) (size : Size) : P Mp4a := do
  let (version, _) ← parseFullHead
  if version ≠ 0 then fail (.unknownVersion version)
  else do
    let (tag, headLen, descLen) ← parseDescHead
    if tag ≠ 0x03 then fail (.descriptorNotFound 0x03)
    else do
      let n ← size.contentLen.p
      let n ← (subU n 4).p
      let maxLen ← (subU n headLen).p
      parseEsDesc info (min descLen maxLen)

/-- `Mp4a::parse_atom` (src/atom/mp4a.rs:73-94). -/
def parseMp4a (size : Size) : P Mp4a := do
  let bounds ← findBounds size
  seekCur 28
  let head ← parseHead
  if head.fourcc ≠ ELEMENTARY_STREAM_DESCRIPTION then
    fail (.atomNotFound ELEMENTARY_STREAM_DESCRIPTION)
  else do
    let info ← parseEsds {} head.size
    seekToEnd bounds
    pure info

/-- `Stsd::parse_atom` (src/atom/stsd.rs:12-43); result: `stsd.mp4a`. -/
def parseStsd (size : Size) : P (Option Mp4a) := do
  let (version, _) ← parseFullHead
  if version ≠ 0 then fail (.unknownVersion version)
  else do
    seekCur 4
    loop size.contentLen (fun s h =>
      if h.fourcc = MP4_AUDIO then do let a ← parseMp4a h.size; pure (some a)
      else do skipContent h; pure s) none 8

/-- `Stbl::parse_atom` (src/atom/stbl.rs:12-34); result: `stbl.stsd` as the optional `mp4a`
inside. -/
def parseStbl (size : Size) : P (Option (Option Mp4a)) :=
  loop size.contentLen (fun s h =>
    if h.fourcc = SAMPLE_TABLE_SAMPLE_DESCRIPTION then do let a ← parseStsd h.size; pure (some a)
    else do skipContent h; pure s) none 0

/-- `Minf::parse_atom` (src/atom/minf.rs:12-32); result: `minf.stbl`. -/
def parseMinf (size : Size) : P (Option (Option (Option Mp4a))) :=
  loop size.contentLen (fun s h =>
    if h.fourcc = SAMPLE_TABLE then do let a ← parseStbl h.size; pure (some a)
    else do skipContent h; pure s) none 0

/-- `Mdia::parse_atom` (src/atom/mdia.rs:12-32); result: `mdia.minf`. -/
def parseMdia (size : Size) : P (Option (Option (Option (Option Mp4a)))) :=
  loop size.contentLen (fun s h =>
    if h.fourcc = MEDIA_INFORMATION then do let a ← parseMinf h.size; pure (some a)
    else do skipContent h; pure s) none 0

/-- A parsed `trak` (src/atom/trak.rs:4-6): `mdia`, in it `minf`, in it `stbl`, in it `stsd`, in it
`mp4a`, each optional. -/
abbrev Trak := Option (Option (Option (Option (Option Mp4a))))

/-- `Trak::parse_atom` (src/atom/trak.rs:12-32). -/
def parseTrak (size : Size) : P Trak :=
  loop size.contentLen (fun s h =>
    if h.fourcc = MEDIA then do let a ← parseMdia h.size; pure (some a)
    else do skipContent h; pure s) none 0

/-- The local variables of `AtomData::parse` (src/atom/mod.rs:190-192). -/
structure ItemSt where
  data : List Data := []
  mean : Option Str := none
  name : Option Str := none
deriving DecidableEq, Repr

/-- The `match` in the loop of `AtomData::parse` (src/atom/mod.rs:198-240). -/
def itemHandle (s : ItemSt) (h : Head) : P ItemSt :=
  if h.fourcc = DATA then do
    let (version, flags) ← parseFullHead
    if version ≠ 0 then fail (.unknownVersion version)
    else do
      let datatype := beNat flags
      seekCur 4
      let n ← h.size.contentLen.p
      let n ← (subU n 8).p
      let d ← Data.parse datatype n
      pure { s with data := s.data ++ [d] }
  else if h.fourcc = MEAN then do
    let (version, _) ← parseFullHead
    if version ≠ 0 then fail (.unknownVersion version)
    else do
      let n ← h.size.contentLen.p
      let n ← (subU n 4).p
      let m ← readUtf8 n
      pure { s with mean := some m }
  else if h.fourcc = NAME then do
    let (version, _) ← parseFullHead
    if version ≠ 0 then fail (.unknownVersion version)
    else do
      let n ← h.size.contentLen.p
      let n ← (subU n 4).p
      let m ← readUtf8 n
      pure { s with name := some m }
  else do
    skipContent h
    pure s

/-- The identifier chosen at the end of `AtomData::parse` (src/atom/mod.rs:245-248). -/
def itemIdent (parent : Fourcc) (mean name : Option Str) : DataIdent :=
  match mean, name with
  | some m, some n => if parent = FREEFORM then .freeform m n else .fourcc parent
  | _, _ => .fourcc parent

/-- `AtomData::parse` (src/atom/mod.rs:189-258). -/
def parseItem (parent : Fourcc) (len : Nat) : P AtomData := do
  let s ← loop (pure len) itemHandle {} 0
  if s.data.isEmpty then fail (.atomNotFound DATA)
  else pure ⟨itemIdent parent s.mean s.name, s.data⟩

/-- Merging an item into the list (src/atom/ilst.rs:38-43): the first entry with an equal
identifier is extended, otherwise the item is pushed. -/
def mergeItem : List AtomData → AtomData → List AtomData
  | [], a => [a]
  | o :: os, a =>
    if a.ident = o.ident then { o with data := o.data ++ a.data } :: os
    else o :: mergeItem os a

/-- `Ilst::parse_atom` (src/atom/ilst.rs:24-52). -/
def parseIlst (size : Size) : P (List AtomData) :=
  loop size.contentLen (fun s h =>
    if h.fourcc = FREE then do skipContent h; pure s
    else do
      let n ← h.size.contentLen.p
      let a ← parseItem h.fourcc n
      pure (mergeItem s a)) [] 0

/-- `Meta::parse_atom` (src/atom/meta.rs:13-42); result: `meta.ilst`. -/
def parseMeta (size : Size) : P (Option (List AtomData)) := do
  let (version, _) ← parseFullHead
  if version ≠ 0 then fail (.unknownVersion version)
  else
    loop size.contentLen (fun s h =>
      if h.fourcc = ITEM_LIST then do let a ← parseIlst h.size; pure (some a)
      else do skipContent h; pure s) none 4

/-- `Udta::parse_atom` (src/atom/udta.rs:12-32); result: `udta.meta`. -/
def parseUdta (size : Size) : P (Option (Option (List AtomData))) :=
  loop size.contentLen (fun s h =>
    if h.fourcc = METADATA then do let a ← parseMeta h.size; pure (some a)
    else do skipContent h; pure s) none 0

/-- A parsed `moov` (src/atom/moov.rs:4-8). -/
structure Moov where
  mvhd : Option Nat := none
  trak : List Trak := []
  udta : Option (Option (Option (List AtomData))) := none
deriving DecidableEq, Repr

/-- The `match` in the loop of `Moov::parse_atom` (src/atom/moov.rs:22-29). -/
def moovHandle (s : Moov) (h : Head) : P Moov :=
  if h.fourcc = MOVIE_HEADER then do let a ← parseMvhd h.size; pure { s with mvhd := some a }
  else if h.fourcc = TRACK then do let a ← parseTrak h.size; pure { s with trak := s.trak ++ [a] }
  else if h.fourcc = USER_DATA then do let a ← parseUdta h.size; pure { s with udta := some a }
  else do skipContent h; pure s

/-- `Moov::parse_atom` (src/atom/moov.rs:14-36). -/
def parseMoov (size : Size) : P Moov := loop size.contentLen moovHandle {} 0

/-- The loop of `read_tag_from` (src/atom/mod.rs:303-324), left at the first `moov`. -/
def topWalk (len : Nat) : Nat → Nat → P Moov
  | 0, _ => outOfFuel
  | f+1, parsed =>
    if parsed ≥ len then fail (.atomNotFound MOVIE)
    else do
      let head ← parseHead
      if head.fourcc = MOVIE then parseMoov head.size
      else do
        skipContent head
        let parsed' ← (addU parsed head.size.len).p
        topWalk len f parsed'

/-- The `mp4a` of a track (src/atom/mod.rs:327-333). -/
def trakMp4a (t : Trak) : Option Mp4a := t.bind id |>.bind id |>.bind id |>.bind id

/-- The tag built from the parsed atoms (src/atom/mod.rs:326-352). -/
def mkTag (ftyp : Str) (moov : Moov) : Tag :=
  let mp4a := moov.trak.findSome? trakMp4a
  let ilst := ((moov.udta.bind id).bind id).getD []
  let info : AudioInfo := {}
  let info := match moov.mvhd with
    | some d => { info with duration := some d }
    | none => info
  let info := match mp4a with
    | some i => { info with
        channelConfig := i.channelConfig, sampleRate := i.sampleRate,
        maxBitrate := i.maxBitrate, avgBitrate := i.avgBitrate }
    | none => info
  ⟨ftyp, info, ilst⟩

/-- `read_tag_from` (src/atom/mod.rs:299-353). -/
def readTagP : P Tag := do
  let ftyp ← parseFtyp
  let len ← remainingStreamLen
  let f ← getFuel
  let moov ← topWalk len f 0
  pure (mkTag ftyp moov)

/-- The value of an outcome, without the position. -/
def Out.val {α} : Out (α × Nat) → Out α
  | .ok (a, _) => .ok a
  | .err k => .err k
  | .panic => .panic
  | .fuel => .fuel

/-- `Tag::read_from` (src/tag/mod.rs:93-95) on a stream with content `F` positioned at `pos`. -/
def readTag (e : Env) (F : Bytes) (pos : Nat) : Out Tag := (readTagP e F pos).val

end Mp4
