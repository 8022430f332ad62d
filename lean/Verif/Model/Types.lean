import Verif.Model.Basic
/-
Value types of the public API (src/types.rs).
-/
namespace Mp4

/-- src/types.rs:77-96 -/
inductive MediaType where
  | movie | normal | audioBook | whackedBookmark | musicVideo | shortFilm | tvShow | booklet
deriving DecidableEq, Repr

/-- `MediaType::code` (src/types.rs:98-112, constants 9-23). -/
def MediaType.code : MediaType → UInt8
  | .movie => 0
  | .normal => 1
  | .audioBook => 2
  | .whackedBookmark => 5
  | .musicVideo => 6
  | .shortFilm => 9
  | .tvShow => 10
  | .booklet => 11

/-- `MediaType::try_from(u8).ok()` (src/types.rs:114-133). -/
def MediaType.ofCode (n : UInt8) : Option MediaType :=
  if n = 0 then some .movie
  else if n = 1 then some .normal
  else if n = 2 then some .audioBook
  else if n = 5 then some .whackedBookmark
  else if n = 6 then some .musicVideo
  else if n = 9 then some .shortFilm
  else if n = 10 then some .tvShow
  else if n = 11 then some .booklet
  else none

/-- src/types.rs:150-160 -/
inductive AdvisoryRating where
  | clean | inoffensive | explicit
deriving DecidableEq, Repr

/-- `AdvisoryRating::code` (src/types.rs:162-171, constants 27-31). -/
def AdvisoryRating.code : AdvisoryRating → UInt8
  | .clean => 2
  | .inoffensive => 0
  | .explicit => 4

/-- `AdvisoryRating::from(u8)` (src/types.rs:173-181). -/
def AdvisoryRating.ofCode (n : UInt8) : AdvisoryRating :=
  if n = 2 then .clean else if n = 0 then .inoffensive else .explicit

/-- src/types.rs:193-210 -/
inductive ChannelConfig where
  | mono | stereo | three | four | five | fiveOne | sevenOne
deriving DecidableEq, Repr

/-- `ChannelConfig::try_from(u8).ok()` (src/types.rs:212-230, constants 35-47). -/
def ChannelConfig.ofCode (n : Nat) : Option ChannelConfig :=
  match n with
  | 1 => some .mono
  | 2 => some .stereo
  | 3 => some .three
  | 4 => some .four
  | 5 => some .five
  | 6 => some .fiveOne
  | 7 => some .sevenOne
  | _ => none

/-- `ChannelConfig::channel_count` (src/types.rs:232-245). -/
def ChannelConfig.channelCount : ChannelConfig → Nat
  | .mono => 1
  | .stereo => 2
  | .three => 3
  | .four => 4
  | .five => 5
  | .fiveOne => 6
  | .sevenOne => 8

/-- src/types.rs:261-290 -/
inductive SampleRate where
  | hz96000 | hz88200 | hz64000 | hz48000 | hz44100 | hz32000 | hz24000 | hz22050 | hz16000
  | hz12000 | hz11025 | hz8000 | hz7350
deriving DecidableEq, Repr

/-- `SampleRate::try_from(u8).ok()` (src/types.rs:292-316, constants 51-75). -/
def SampleRate.ofCode (n : Nat) : Option SampleRate :=
  match n with
  | 0 => some .hz96000
  | 1 => some .hz88200
  | 2 => some .hz64000
  | 3 => some .hz48000
  | 4 => some .hz44100
  | 5 => some .hz32000
  | 6 => some .hz24000
  | 7 => some .hz22050
  | 8 => some .hz16000
  | 9 => some .hz12000
  | 10 => some .hz11025
  | 11 => some .hz8000
  | 12 => some .hz7350
  | _ => none

/-- `SampleRate::hz` (src/types.rs:324-343). -/
def SampleRate.hz : SampleRate → Nat
  | .hz96000 => 96000
  | .hz88200 => 88200
  | .hz64000 => 64000
  | .hz48000 => 48000
  | .hz44100 => 44100
  | .hz32000 => 32000
  | .hz24000 => 24000
  | .hz22050 => 22050
  | .hz16000 => 16000
  | .hz12000 => 12000
  | .hz11025 => 11025
  | .hz8000 => 8000
  | .hz7350 => 7350

/-- src/types.rs:345-358. A `Duration` is its number of nanoseconds. -/
structure AudioInfo where
  duration : Option Nat := none
  channelConfig : Option ChannelConfig := none
  sampleRate : Option SampleRate := none
  maxBitrate : Option Nat := none
  avgBitrate : Option Nat := none
deriving DecidableEq, Repr

/-- src/types.rs:398-407 -/
inductive ImgFmt where
  | bmp | jpeg | png
deriving DecidableEq, Repr

/-- src/types.rs:367-374 (`ImgBuf`, `ImgRef`, `ImgMut` differ only in ownership). -/
structure Img where
  fmt : ImgFmt
  data : Bytes
deriving DecidableEq, Repr

end Mp4
