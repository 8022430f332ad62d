import Verif.Spec.Layout
import Verif.Model.Read
/-
Specification of the content of the leaves a reader interprets, in the direction of encoding:
`XBody b v` says that the bytes `b` are an encoding of the value `v`.
-/
namespace Mp4.Spec

/-- Two lists of the same length, related element by element. -/
def All2 {α β} (R : α → β → Prop) : List α → List β → Prop
  | [], [] => True
  | a :: as, b :: bs => R a b ∧ All2 R as bs
  | _, _ => False

/-! ### Movie header -/

/-- A movie header of version 0 or 1 whose duration is `nanos` nanoseconds, rounded down. -/
def MvhdBody (b : Bytes) (nanos : Nat) : Prop :=
  ∃ (flags times : Bytes) (timescale duration : Nat) (rest : Bytes),
    flags.length = 3 ∧ 0 < timescale ∧ timescale < 2^32 ∧
    nanos = duration * 1000000000 / timescale ∧
    ((times.length = 8 ∧ duration < 2^32 ∧
        b = 0 :: flags ++ times ++ be32 timescale ++ be32 duration ++ rest) ∨
     (times.length = 16 ∧ duration * 1000000000 < 2^64 ∧
        b = 1 :: flags ++ times ++ be32 timescale ++ be64 duration ++ rest))

/-! ### Audio description -/

/-- `bs` encodes the length `n` of a descriptor: one to four bytes of seven bits, all but the last with
the continuation bit. -/
def DescLen : Nat → Bytes → Nat → Prop
  | _, [], _ => False
  | 0, _ :: _, _ => False
  | k+1, b :: bs, n =>
    if bs = [] then b.toNat < 128 ∧ n = b.toNat
    else 128 ≤ b.toNat ∧ ∃ m, DescLen k bs m ∧ n = (b.toNat - 128) * 128 ^ bs.length + m

/-- A descriptor: tag, encoded length, content. -/
structure Desc where
  tag : UInt8
  lenBytes : Bytes
  body : Bytes
deriving DecidableEq, Repr

def Desc.ser (d : Desc) : Bytes := d.tag :: d.lenBytes ++ d.body
def Desc.WF (d : Desc) : Prop := DescLen 4 d.lenBytes d.body.length

/-- A decoder specific descriptor: object type (5 bits), sample rate index (4 bits), channel
configuration (4 bits), 3 further bits, and any further bytes. -/
def DsBody (b : Bytes) (rate channels : Nat) : Prop :=
  ∃ (objectType low : Nat) (rest : Bytes), objectType < 32 ∧ rate < 16 ∧ channels < 16 ∧ low < 8 ∧
    b = [UInt8.ofNat (objectType * 8 + rate / 2),
         UInt8.ofNat (rate % 2 * 128 + channels * 8 + low)] ++ rest

/-- A decoder config: 5 bytes, maximum and average bitrate, further descriptors; `specs` are the
(rate, channel) pairs of the decoder specific descriptors (tag 5) among them. -/
def DcBody (b : Bytes) (maxRate avgRate : Nat) (specs : List (Nat × Nat)) : Prop :=
  ∃ (front : Bytes) (descs : List Desc), front.length = 5 ∧ maxRate < 2^32 ∧ avgRate < 2^32 ∧
    (∀ d ∈ descs, d.WF) ∧
    b = front ++ be32 maxRate ++ be32 avgRate ++ descs.flatMap Desc.ser ∧
    All2 (fun d s => DsBody d.body s.1 s.2) (descs.filter (·.tag = 5)) specs

/-- What a decoder config says. -/
structure Config where
  maxRate : Nat
  avgRate : Nat
  specs : List (Nat × Nat)
deriving DecidableEq, Repr

/-- An elementary stream descriptor's content: 3 bytes, then descriptors, among them decoder configs
(tag 4). -/
def EsBody (b : Bytes) (configs : List Config) : Prop :=
  ∃ (front : Bytes) (descs : List Desc), front.length = 3 ∧ (∀ d ∈ descs, d.WF) ∧
    b = front ++ descs.flatMap Desc.ser ∧
    All2 (fun d c => DcBody d.body c.maxRate c.avgRate c.specs) (descs.filter (·.tag = 4)) configs

/-- The content of an `esds` atom: version 0, flags, an elementary stream descriptor (tag 3), anything. -/
def EsdsBody (b : Bytes) (configs : List Config) : Prop :=
  ∃ (flags : Bytes) (d : Desc) (rest : Bytes), flags.length = 3 ∧ d.tag = 3 ∧ d.WF ∧
    b = 0 :: flags ++ d.ser ++ rest ∧ EsBody d.body configs

/-- The content of an `mp4a` atom: 28 bytes, an `esds` atom, anything. -/
def Mp4aBody (b : Bytes) (configs : List Config) : Prop :=
  ∃ (front : Bytes) (esds : Box) (rest : Bytes), front.length = 28 ∧ esds.fc = cc 'e' 's' 'd' 's' ∧
    esds.Fits ∧ b = front ++ esds.ser ++ rest ∧ EsdsBody esds.body configs

/-- `R` holds between the last element of `ks` selected by `sel` and `r`; `r` is `none` if nothing is
selected. All selected elements are related to something. -/
def LastOf {κ β γ} (sel : κ → Option β) (R : β → γ → Prop) (ks : List κ) (r : Option γ) : Prop :=
  (∀ k ∈ ks, ∀ b, sel k = some b → ∃ g, R b g) ∧
  match (ks.filterMap sel).getLast? with
  | some b => ∃ g, r = some g ∧ R b g
  | none => r = none

/-- The body of a box with a given identifier. -/
def Box.sel (fc : Fourcc) (b : Box) : Option Bytes := if b.fc = fc then some b.body else none

/-- The content of an `stsd` atom: version 0, flags, 4 bytes, the sample entries; the last `mp4a` entry
counts. -/
def StsdBody (b : Bytes) (r : Option (List Config)) : Prop :=
  ∃ (flags count : Bytes) (entries : List Box), flags.length = 3 ∧ count.length = 4 ∧
    (∀ x ∈ entries, x.Fits) ∧ b = 0 :: flags ++ count ++ serL id entries ∧
    LastOf (Box.sel (cc 'm' 'p' '4' 'a')) Mp4aBody entries r

/-- The audio description along `mdia`/`minf`/`stbl`/`stsd`/`mp4a`; `none` if one of them is missing. -/
def StblAudio (s : Stbl) (r : Option (List Config)) : Prop :=
  ∃ q, LastOf (Box.sel (cc 's' 't' 's' 'd')) StsdBody s q ∧ r = q.join
def MinfAudio (s : Minf) (r : Option (List Config)) : Prop :=
  ∃ q, LastOf Kid.sel StblAudio s q ∧ r = q.join
def MdiaAudio (s : Mdia) (r : Option (List Config)) : Prop :=
  ∃ q, LastOf Kid.sel MinfAudio s q ∧ r = q.join
def TrakAudio (s : Trak) (r : Option (List Config)) : Prop :=
  ∃ q, LastOf Kid.sel MdiaAudio s q ∧ r = q.join

/-- MPEG-4 sampling frequency indices. -/
def sampleRates : List SampleRate :=
  [.hz96000, .hz88200, .hz64000, .hz48000, .hz44100, .hz32000, .hz24000, .hz22050, .hz16000, .hz12000,
   .hz11025, .hz8000, .hz7350]

/-- MPEG-4 channel configurations 1 to 7. -/
def channelConfigs : List ChannelConfig :=
  [.mono, .stereo, .three, .four, .five, .fiveOne, .sevenOne]

/-- The channel configuration of code `n`. -/
def channelOf (n : Nat) : Option ChannelConfig := if n = 0 then none else channelConfigs[n - 1]?

/-- The audio information reported: bitrates of the last decoder config, rate and channels of the last
decoder specific descriptor. -/
def audioInfo (duration : Option Nat) (audio : Option (List Config)) : AudioInfo :=
  let cs := audio.getD []
  let spec := (cs.flatMap (·.specs)).getLast?
  { duration
    maxBitrate := cs.getLast?.map (·.maxRate)
    avgBitrate := cs.getLast?.map (·.avgRate)
    sampleRate := spec.bind fun s => sampleRates[s.1]?
    channelConfig := spec.bind fun s => channelOf s.2 }

/-! ### Item list -/

/-- UTF-16 code units of a character. -/
def utf16Char (c : Char) : List Nat :=
  if c.toNat < 2^16 then [c.toNat]
  else [0xD800 + (c.toNat - 2^16) / 2^10, 0xDC00 + (c.toNat - 2^16) % 2^10]

/-- UTF-16 code units of a string. -/
def utf16 (s : Str) : List Nat := s.flatMap utf16Char

/-- A 16 bit integer, most significant byte first. -/
def be16 (n : Nat) : Bytes := [UInt8.ofNat (n / 2^8), UInt8.ofNat n]

/-- Big endian UTF-16 bytes of a string. -/
def utf16be (s : Str) : Bytes := (utf16 s).flatMap be16

/-- `payload` encodes the value with the given type code. -/
inductive ValueEnc : Nat → Bytes → Data → Prop where
  | reserved (b) : ValueEnc 0 b (.reserved b)
  | utf8 (s) : ValueEnc 1 (utf8 s) (.utf8 s)
  | utf16 (s odd) : odd.length ≤ 1 → ValueEnc 2 (utf16be s ++ odd) (.utf16 s)
  | jpeg (b) : ValueEnc 13 b (.jpeg b)
  | png (b) : ValueEnc 14 b (.png b)
  | beSigned (b) : ValueEnc 21 b (.beSigned b)
  | bmp (b) : ValueEnc 27 b (.bmp b)

/-- A part of an item. -/
inductive Part where
  | data (ext : Bool) (code : Nat) (locale payload : Bytes) (value : Data)
  | mean (ext : Bool) (flags : Bytes) (s : Str)
  | name (ext : Bool) (flags : Bytes) (s : Str)
  | other (b : Box)
deriving DecidableEq, Repr

/-- The atom of a part: version 0, then for `data` the type code (24 bits), 4 bytes of locale and the
payload; for `mean` and `name` flags and the text. -/
def Part.box : Part → Box
  | .data ext code locale payload _ =>
    ⟨ext, cc 'd' 'a' 't' 'a', be32 code ++ locale ++ payload⟩
  | .mean ext flags s => ⟨ext, cc 'm' 'e' 'a' 'n', 0 :: flags ++ utf8 s⟩
  | .name ext flags s => ⟨ext, cc 'n' 'a' 'm' 'e', 0 :: flags ++ utf8 s⟩
  | .other b => b

def Part.WF (p : Part) : Prop :=
  p.box.Fits ∧
  match p with
  | .data _ code locale payload value => locale.length = 4 ∧ ValueEnc code payload value
  | .mean _ flags _ => flags.length = 3
  | .name _ flags _ => flags.length = 3
  | .other b => b.fc ≠ cc 'd' 'a' 't' 'a' ∧ b.fc ≠ cc 'm' 'e' 'a' 'n' ∧ b.fc ≠ cc 'n' 'a' 'm' 'e'

def Part.value? : Part → Option Data
  | .data _ _ _ _ v => some v
  | _ => none
def Part.mean? : Part → Option Str
  | .mean _ _ s => some s
  | _ => none
def Part.name? : Part → Option Str
  | .name _ _ s => some s
  | _ => none

/-- A child of the item list: an item or a `free` atom. -/
inductive Entry where
  | item (ext : Bool) (fc : Fourcc) (parts : List Part)
  | free (ext : Bool) (body : Bytes)
deriving DecidableEq, Repr

def Entry.box : Entry → Box
  | .item ext fc parts => ⟨ext, fc, serL Part.box parts⟩
  | .free ext body => ⟨ext, cc 'f' 'r' 'e' 'e', body⟩

/-- An item is not called `free` and has at least one value. -/
def Entry.WF (x : Entry) : Prop :=
  x.box.Fits ∧
  match x with
  | .item _ fc parts => fc ≠ cc 'f' 'r' 'e' 'e' ∧ (∀ p ∈ parts, p.WF) ∧ parts.filterMap Part.value? ≠ []
  | .free _ _ => True

/-- The identifier of an item: a `----` item with `mean` and `name` is a freeform item. -/
def itemKey (fc : Fourcc) (parts : List Part) : DataIdent :=
  match (parts.filterMap Part.mean?).getLast?, (parts.filterMap Part.name?).getLast? with
  | some m, some n => if fc = cc '-' '-' '-' '-' then .freeform m n else .fourcc fc
  | _, _ => .fourcc fc

/-- Identifier and values of an item. -/
def Entry.decoded : Entry → Option (DataIdent × List Data)
  | .item _ fc parts => some (itemKey fc parts, parts.filterMap Part.value?)
  | .free _ _ => none

/-- The identifiers of a list in order of first occurrence. -/
def firsts : List DataIdent → List DataIdent
  | [] => []
  | k :: ks => k :: (firsts ks).filter (· ≠ k)

/-- Items with the same identifier are merged at the position of the first one, values in file order. -/
def group (items : List (DataIdent × List Data)) : List AtomData :=
  (firsts (items.map Prod.fst)).map fun k => ⟨k, (items.filter (·.1 = k)).flatMap Prod.snd⟩

/-- The content of an item list. -/
def IlstBody (b : Bytes) (items : List (DataIdent × List Data)) : Prop :=
  ∃ entries : List Entry, (∀ x ∈ entries, x.WF) ∧ b = serL Entry.box entries ∧
    items = entries.filterMap Entry.decoded

/-- The items of a metadata, a user data atom. -/
def MetaItems (m : Meta) (r : Option (List (DataIdent × List Data))) : Prop :=
  LastOf (Box.sel (cc 'i' 'l' 's' 't')) IlstBody m.kids r
def UdtaItems (u : Udta) (r : Option (List (DataIdent × List Data))) : Prop :=
  ∃ q, LastOf Kid.sel MetaItems u q ∧ r = q.join

/-! ### The whole file -/

def MoovKid.trak? : MoovKid → Option Trak
  | .trak _ t => some t
  | _ => none
def MoovKid.udta? : MoovKid → Option Udta
  | .udta _ u => some u
  | _ => none
def MoovKid.mvhd? : MoovKid → Option Bytes
  | .raw b => Box.sel (cc 'm' 'v' 'h' 'd') b
  | _ => none

/-- The movie has the given duration, audio description of the first track that has one, and items. -/
def MoovContent (m : Moov) (duration : Option Nat) (audio : Option (List Config))
    (items : Option (List (DataIdent × List Data))) : Prop :=
  LastOf MoovKid.mvhd? MvhdBody m duration ∧
  (∃ as : List (Option (List Config)), All2 TrakAudio (m.filterMap MoovKid.trak?) as ∧
    audio = as.findSome? id) ∧
  ∃ q, LastOf MoovKid.udta? UdtaItems m q ∧ items = q.join

/-- The tag a file contains. -/
def File.Content (f : File) (t : Tag) : Prop :=
  ∃ duration audio items, MoovContent f.moov duration audio items ∧
    t = { ftyp := f.ftyp, info := audioInfo duration audio, atoms := group (items.getD []) }

end Mp4.Spec
