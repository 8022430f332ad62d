import Verif.Spec.Sane
/-
Where the parts of a tag come from: statements that a text, a value, a duration, a bitrate is stored in an arbitrary
byte string. They do not depend on any structure of the byte string apart from the atom or descriptor itself.
-/
namespace Mp4.Spec

/-- `F` has a file type atom whose whole content is the text. -/
def FtypIn (F : Bytes) (s : Str) : Prop :=
  ∃ ext rest, HeadIn F ext (cc 'f' 't' 'y' 'p') (hlen ext + (utf8 s).length) (utf8 s ++ rest)

/-- `F` has an atom `fc` of version 0 whose content after the flags is the text. -/
def TextIn (F : Bytes) (fc : Fourcc) (s : Str) : Prop :=
  ∃ ext flags rest, flags.length = 3 ∧
    HeadIn F ext fc (hlen ext + 4 + (utf8 s).length) (0 :: flags ++ utf8 s ++ rest)

/-- `F` has a value atom of the type and the payload of the value. Of an empty value the locale may be missing. -/
def ValueIn (F : Bytes) (d : Data) : Prop :=
  ∃ ext code payload tail, ValueEnc code payload d ∧
    HeadIn F ext (cc 'd' 'a' 't' 'a') (hlen ext + 8 + payload.length) (be32 code ++ tail) ∧
    (payload = [] ∨ ∃ locale rest, locale.length = 4 ∧ tail = locale ++ payload ++ rest)

/-- `F` has an atom with the identifier; for a freeform identifier also atoms with the two texts. -/
def IdentIn (F : Bytes) : DataIdent → Prop
  | .fourcc f => ∃ ext n rest, HeadIn F ext f n rest
  | .freeform mean name => (∃ ext n rest, HeadIn F ext (cc '-' '-' '-' '-') n rest) ∧
      TextIn F (cc 'm' 'e' 'a' 'n') mean ∧ TextIn F (cc 'n' 'a' 'm' 'e') name

/-- `F` has a movie header with the duration. `wrap` tells whether the nanoseconds are computed modulo 2^64. -/
def DurationIn (F : Bytes) (wrap : Bool) (nanos : Nat) : Prop :=
  ∃ ext n flags times scale d rest, flags.length = 3 ∧ 0 < scale ∧ scale < 2^32 ∧
    ((times.length = 8 ∧ d < 2^32 ∧ nanos = d * 1000000000 / scale ∧
        HeadIn F ext (cc 'm' 'v' 'h' 'd') n (0 :: flags ++ times ++ be32 scale ++ be32 d ++ rest)) ∨
     (times.length = 16 ∧ d < 2^64 ∧ (if wrap then nanos = d * 1000000000 % 2^64 / scale
        else d * 1000000000 < 2^64 ∧ nanos = d * 1000000000 / scale) ∧
        HeadIn F ext (cc 'm' 'v' 'h' 'd') n (1 :: flags ++ times ++ be32 scale ++ be64 d ++ rest)))

/-- One to four bytes, all but the last with the continuation bit; the last one too if there are four. -/
def LenBytes : Nat → Bytes → Prop
  | _, [] => False
  | 0, _ :: _ => False
  | k+1, b :: bs => if bs = [] then b.toNat < 128 ∨ k = 0 else 128 ≤ b.toNat ∧ LenBytes k bs

/-- `F` has a descriptor with this tag, the content beginning with `c`. -/
def DescIn (F : Bytes) (tag : UInt8) (c : Bytes) : Prop :=
  ∃ A len rest, LenBytes 4 len ∧ F = A ++ tag :: len ++ c ++ rest

/-- `F` has a decoder config descriptor with the bitrates. -/
def RatesIn (F : Bytes) (maxRate avgRate : Nat) : Prop :=
  ∃ front : Bytes, front.length = 5 ∧ maxRate < 2^32 ∧ avgRate < 2^32 ∧
    DescIn F 4 (front ++ be32 maxRate ++ be32 avgRate)

/-- `F` has a decoder specific descriptor with the sample rate index and the channel configuration. -/
def SpecIn (F : Bytes) (rate channels : Nat) : Prop := ∃ b : Bytes, DsBody b rate channels ∧ DescIn F 5 b

/-- `F` has an `mp4a` atom and an `esds` atom. -/
def AudioIn (F : Bytes) : Prop :=
  (∃ ext n rest, HeadIn F ext (cc 'm' 'p' '4' 'a') n rest) ∧ ∃ ext n rest, HeadIn F ext (cc 'e' 's' 'd' 's') n rest

/-- Everything a tag says is stored in `F`. -/
structure TagIn (F : Bytes) (wrap : Bool) (t : Tag) : Prop where
  ftyp : FtypIn F t.ftyp
  visible : ∀ a ∈ t.atoms, a.data ≠ [] ∧ a.ident ≠ .fourcc (cc 'f' 'r' 'e' 'e')
  idents : ∀ a ∈ t.atoms, IdentIn F a.ident
  values : ∀ a ∈ t.atoms, ∀ d ∈ a.data, ValueIn F d
  duration : ∀ d, t.info.duration = some d → DurationIn F wrap d
  rates : (t.info.maxBitrate = none ∧ t.info.avgBitrate = none) ∨
    ∃ x y, t.info.maxBitrate = some x ∧ t.info.avgBitrate = some y ∧ AudioIn F ∧ RatesIn F x y
  spec : (t.info.sampleRate = none ∧ t.info.channelConfig = none) ∨
    ∃ r c, t.info.sampleRate = sampleRates[r]? ∧ t.info.channelConfig = channelOf c ∧ AudioIn F ∧ SpecIn F r c

end Mp4.Spec
