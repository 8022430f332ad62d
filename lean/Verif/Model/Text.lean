import Verif.Model.Basic
/-
Text codecs of std used by the crate: `String::from_utf8`, `str::as_bytes`, `str::encode_utf16`
and `String::from_utf16`.
-/
namespace Mp4

/-- The UTF-8 bytes of one character (std `char::encode_utf8`; used through `str::as_bytes` in
src/atom/data.rs:392-394, src/atom/mod.rs:277,283, src/atom/ftyp.rs:21). -/
def utf8EncChar (c : Char) : Bytes :=
  let n := c.toNat
  if n < 0x80 then [UInt8.ofNat n]
  else if n < 0x800 then [UInt8.ofNat (0xC0 + n / 64), UInt8.ofNat (0x80 + n % 64)]
  else if n < 0x10000 then
    [UInt8.ofNat (0xE0 + n / 4096), UInt8.ofNat (0x80 + n / 64 % 64), UInt8.ofNat (0x80 + n % 64)]
  else
    [UInt8.ofNat (0xF0 + n / 262144), UInt8.ofNat (0x80 + n / 4096 % 64),
     UInt8.ofNat (0x80 + n / 64 % 64), UInt8.ofNat (0x80 + n % 64)]

/-- `str::as_bytes`. -/
def utf8Enc (s : Str) : Bytes := s.flatMap utf8EncChar

/-- A continuation byte `0x80..=0xBF`. -/
def isCont (n : Nat) : Bool := 0x80 ≤ n && n ≤ 0xBF

/-- One step of std's UTF-8 validation (`core::str::validations::run_utf8_validation`) with the
decoded code point and the rest. -/
def utf8Step : Bytes → Option (Nat × Bytes)
  | [] => none
  | b0 :: t =>
    let x := b0.toNat
    if x < 0x80 then some (x, t)
    else if 0xC2 ≤ x ∧ x ≤ 0xDF then
      match t with
      | b1 :: t => if isCont b1.toNat then some ((x - 0xC0) * 64 + (b1.toNat - 0x80), t) else none
      | _ => none
    else if 0xE0 ≤ x ∧ x ≤ 0xEF then
      match t with
      | b1 :: b2 :: t =>
        let y := b1.toNat
        let z := b2.toNat
        if isCont y ∧ isCont z ∧ (x = 0xE0 → 0xA0 ≤ y) ∧ (x = 0xED → y ≤ 0x9F) then
          some ((x - 0xE0) * 4096 + (y - 0x80) * 64 + (z - 0x80), t)
        else none
      | _ => none
    else if 0xF0 ≤ x ∧ x ≤ 0xF4 then
      match t with
      | b1 :: b2 :: b3 :: t =>
        let y := b1.toNat
        let z := b2.toNat
        let w := b3.toNat
        if isCont y ∧ isCont z ∧ isCont w ∧ (x = 0xF0 → 0x90 ≤ y) ∧ (x = 0xF4 → y ≤ 0x8F) then
          some ((x - 0xF0) * 262144 + (y - 0x80) * 4096 + (z - 0x80) * 64 + (w - 0x80), t)
        else none
      | _ => none
    else none

/-- The validation loop; every step consumes a byte, so the length is enough fuel. -/
def utf8DecF : Nat → Bytes → Option Str
  | _, [] => some []
  | 0, _ :: _ => none
  | f+1, b =>
    match utf8Step b with
    | some (n, t) => (utf8DecF f t).map (Char.ofNat n :: ·)
    | none => none

/-- `String::from_utf8`; `none` is `FromUtf8Error`. -/
def utf8Dec (b : Bytes) : Option Str := utf8DecF b.length b

/-- The UTF-16 code units of one character (std `char::encode_utf16`). -/
def utf16EncChar (c : Char) : List Nat :=
  let n := c.toNat
  if n < 0x10000 then [n]
  else [0xD800 + (n - 0x10000) / 1024, 0xDC00 + (n - 0x10000) % 1024]

/-- `str::encode_utf16`. -/
def utf16Enc (s : Str) : List Nat := s.flatMap utf16EncChar

/-- `String::from_utf16` (std `char::decode_utf16`, failing on any unpaired surrogate). -/
def utf16Dec : List Nat → Option Str
  | [] => some []
  | u :: t =>
    if u < 0xD800 ∨ 0xDFFF < u then (utf16Dec t).map (Char.ofNat u :: ·)
    else if 0xDC00 ≤ u then none
    else
      match t with
      | v :: t =>
        if 0xDC00 ≤ v ∧ v ≤ 0xDFFF then
          (utf16Dec t).map (Char.ofNat (0x10000 + (u - 0xD800) * 1024 + (v - 0xDC00)) :: ·)
        else none
      | [] => none

/-- `buf.chunks_exact(2).map(u16::from_be_bytes)`: an odd trailing byte is dropped
(src/atom/data.rs:486-487). -/
def units16 : Bytes → List Nat
  | a :: b :: t => (a.toNat * 256 + b.toNat) :: units16 t
  | _ => []

end Mp4
