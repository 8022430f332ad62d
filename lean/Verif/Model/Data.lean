import Verif.Model.Text
import Verif.Model.Ident
import Verif.Model.Types
/-
Values (src/atom/data.rs) and the reading helpers of the `ReadData` trait.
-/
namespace Mp4

/-- src/atom/data.rs:88-104 -/
inductive Data where
  | reserved (v : Bytes)
  | utf8 (s : Str)
  | utf16 (s : Str)
  | jpeg (v : Bytes)
  | png (v : Bytes)
  | beSigned (v : Bytes)
  | bmp (v : Bytes)
deriving DecidableEq, Repr

/-- `From<Img<T>> for Data` (src/atom/data.rs:120-128). -/
def Data.ofImg (i : Img) : Data :=
  match i.fmt with
  | .bmp => .bmp i.data
  | .jpeg => .jpeg i.data
  | .png => .png i.data

/-- `Data::len` (src/atom/data.rs:132-142). -/
def Data.len : Data → Nat
  | .reserved v => v.length
  | .utf8 s => (utf8Enc s).length
  | .utf16 s => (utf16Enc s).length
  | .jpeg v => v.length
  | .png v => v.length
  | .beSigned v => v.length
  | .bmp v => v.length

/-- `Data::is_empty` (src/atom/data.rs:145-147). -/
def Data.isEmpty (d : Data) : Bool := d.len == 0

/-- `Data::is_bytes` (src/atom/data.rs:150-152). -/
def Data.isBytes : Data → Bool
  | .reserved _ => true
  | .beSigned _ => true
  | _ => false

/-- `Data::is_string` (src/atom/data.rs:155-157). -/
def Data.isString : Data → Bool
  | .utf8 _ => true
  | .utf16 _ => true
  | _ => false

/-- `Data::is_image` (src/atom/data.rs:161-163). -/
def Data.isImage : Data → Bool
  | .jpeg _ => true
  | .png _ => true
  | .bmp _ => true
  | _ => false

/-- `Data::bytes` / `into_bytes` (src/atom/data.rs:202-208, 222-228). -/
def Data.bytes? : Data → Option Bytes
  | .reserved v => some v
  | .beSigned v => some v
  | _ => none

/-- `Data::string` / `into_string` (src/atom/data.rs:231-237, 250-256). -/
def Data.string? : Data → Option Str
  | .utf8 s => some s
  | .utf16 s => some s
  | _ => none

/-- `Data::image` / `into_image` (src/atom/data.rs:260-267, 282-289). -/
def Data.image? : Data → Option Img
  | .jpeg v => some ⟨.jpeg, v⟩
  | .png v => some ⟨.png, v⟩
  | .bmp v => some ⟨.bmp, v⟩
  | _ => none

/-- Mutation through `Data::bytes_mut` (src/atom/data.rs:212-218): `f` is what the caller does
with the `&mut Vec<u8>`. -/
def Data.modBytes (f : Bytes → Bytes) : Data → Data
  | .reserved v => .reserved (f v)
  | .beSigned v => .beSigned (f v)
  | d => d

/-- Mutation through `Data::string_mut` (src/atom/data.rs:241-247). -/
def Data.modString (f : Str → Str) : Data → Data
  | .utf8 s => .utf8 (f s)
  | .utf16 s => .utf16 (f s)
  | d => d

/-- Mutation through `Data::image_mut` (src/atom/data.rs:271-278): only the bytes are reachable
by reference, the format is a copy. -/
def Data.modImage (f : Bytes → Bytes) : Data → Data
  | .jpeg v => .jpeg (f v)
  | .png v => .png (f v)
  | .bmp v => .bmp (f v)
  | d => d

/-! ### `ReadData` (src/atom/data.rs:437-491) -/

/-- `read_u8` (src/atom/data.rs:439-443). -/
def readU8 : P UInt8 := do
  let b ← readExact 1
  pure (b.headD 0)

/-- `read_u16` (src/atom/data.rs:446-450). -/
def readU16 : P Nat := do
  let b ← readExact 2
  pure (beNat b)

/-- `read_u32` (src/atom/data.rs:453-457). -/
def readU32 : P Nat := do
  let b ← readExact 4
  pure (beNat b)

/-- `read_u64` (src/atom/data.rs:460-464). -/
def readU64 : P Nat := do
  let b ← readExact 8
  pure (beNat b)

/-- `vec![0u8; len as usize]`, `Vec::with_capacity(len as usize)`: more than `isize::MAX` bytes is
a capacity overflow panic. Smaller allocations are assumed to succeed. -/
def allocU8 (len : Nat) : E Unit := fun _ => if 2^63 ≤ len then .panic else .ok ()

/-- `read_u8_vec` (src/atom/data.rs:467-471). -/
def readU8Vec (len : Nat) : P Bytes := do
  (allocU8 len).p
  readExact len

/-- `read_utf8` (src/atom/data.rs:474-478). -/
def readUtf8 (len : Nat) : P Str := do
  let b ← readU8Vec len
  match utf8Dec b with
  | some s => pure s
  | none => fail .utf8StringDecoding

/-- `read_utf16` (src/atom/data.rs:481-490). -/
def readUtf16 (len : Nat) : P Str := do
  (allocU8 len).p
  let b ← readExact len
  match utf16Dec (units16 b) with
  | some s => pure s
  | none => fail .utf16StringDecoding

/-- `remaining_stream_len` (src/atom/data.rs:496-504). -/
def remainingStreamLen : P Nat := do
  let current ← tellP
  let complete ← seekEnd
  let len ← (subU complete current).p
  seekStart current
  pure len

/-- `Data::parse` (src/atom/data.rs:418-434, codes 8-36). -/
def Data.parse (datatype len : Nat) : P Data :=
  match datatype with
  | 0 => do let v ← readU8Vec len; pure (.reserved v)
  | 1 => do let s ← readUtf8 len; pure (.utf8 s)
  | 2 => do let s ← readUtf16 len; pure (.utf16 s)
  | 13 => do let v ← readU8Vec len; pure (.jpeg v)
  | 14 => do let v ← readU8Vec len; pure (.png v)
  | 21 => do let v ← readU8Vec len; pure (.beSigned v)
  | 27 => do let v ← readU8Vec len; pure (.bmp v)
  | t => fail (.unknownDataType t)

/-! ### Big endian integers inside byte values -/

/-- `be_int!` (src/atom/data.rs:507-526) for an integer of `size` bytes. -/
def beInt (bytes : Bytes) (index size : Nat) : Option Nat :=
  if bytes.length < index + size then none
  else some (beNat ((bytes.drop index).take size))

/-- The loop of `set_be_int!` (src/atom/data.rs:541-543): `bytes[start + i] = be[i]`. -/
def setBytesAt : Bytes → Nat → Bytes → Bytes
  | bytes, _, [] => bytes
  | bytes, i, x :: xs => setBytesAt (bytes.set i x) (i + 1) xs

/-- `set_be_int!` (src/atom/data.rs:529-545). -/
def setBeInt (bytes : Bytes) (index value size : Nat) : Bytes :=
  let bytes :=
    if bytes.length < index + size then
      bytes ++ List.replicate (index + size - bytes.length) 0
    else bytes
  setBytesAt bytes index (toBe size value)

end Mp4
