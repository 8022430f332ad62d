/-
Model of the runtime the crate relies on: bytes, integers with an explicit overflow profile,
outcomes, and the `Read + Seek` byte stream used by every parsing function.
-/
namespace Mp4

/-- A sequence of bytes (`Vec<u8>`, `&[u8]`, the content of a file). -/
abbrev Bytes := List UInt8

/-- A Rust `String`: a sequence of Unicode scalar values. -/
abbrev Str := List Char

/-- src/atom/ident.rs:165-167, a four byte atom identifier. -/
structure Fourcc where
  a : UInt8
  b : UInt8
  c : UInt8
  d : UInt8
deriving DecidableEq, Repr, Inhabited

/-- src/atom/ident.rs:169-175, the bytes of an identifier. -/
def Fourcc.bytes (f : Fourcc) : Bytes := [f.a, f.b, f.c, f.d]

/-- An identifier literal such as `Fourcc(*b"moov")`. Characters are Latin-1, so `'©'` is the
byte `0xa9`. -/
def cc (a b c d : Char) : Fourcc :=
  ⟨UInt8.ofNat a.toNat, UInt8.ofNat b.toNat, UInt8.ofNat c.toNat, UInt8.ofNat d.toNat⟩

/-- src/error.rs:10-39. Payloads that are opaque std values are dropped. The description strings
of `Error` (src/error.rs:42-47) are added in Model/Describe.lean. -/
inductive ErrKind where
  | atomNotFound (f : Fourcc)
  | descriptorNotFound (t : UInt8)
  | io
  | noTag
  | parsing
  | unknownChannelConfig (n : UInt8)
  | unknownDataType (n : Nat)
  | unknownMediaType (n : UInt8)
  | unknownVersion (n : UInt8)
  | utf8StringDecoding
  | utf16StringDecoding
  | unwritableData
deriving DecidableEq, Repr

/-- How a call can end: with a value, an `Err`, a panic, or (model only) without having finished
within the allowed number of loop iterations. -/
inductive Out (α : Type) where
  | ok (a : α)
  | err (k : ErrKind)
  | panic
  | fuel
deriving DecidableEq, Repr

/-- The execution environment all theorems quantify over.
* `checked`: overflow checks on (debug profile) or off (release profile).
* `fuel`: bound on the iterations of each single loop.
* `maxPos`: the largest position `seek`/`set_len` accept.
* `cap`: the capacity of the `BufWriter`.
* `rcur`: where buffered reading leaves the file cursor shared with the writer. -/
structure Env where
  checked : Bool
  fuel : Nat
  maxPos : Nat
  cap : Nat
  rcur : Nat → Nat

/-! ### Big endian integers (`to_be_bytes`, `from_be_bytes`) -/

/-- `to_be_bytes` of the low `8*k` bits of `n` (so `toBe 4 n` is `u32::to_be_bytes(n as u32)`). -/
def toBe : Nat → Nat → Bytes
  | 0, _ => []
  | k+1, n => toBe k (n / 256) ++ [UInt8.ofNat (n % 256)]

/-- `from_be_bytes`. -/
def beNat (b : Bytes) : Nat := b.foldl (fun a x => a * 256 + x.toNat) 0

/-! ### Computations that only do arithmetic -/

/-- A computation that depends on the environment but does no I/O. -/
def E (α : Type) := Env → Out α

/-- Sequencing of outcomes: `?` and panics propagate. -/
@[inline] def Out.bind {α β} (m : Out α) (f : α → Out β) : Out β :=
  match m with
  | .ok a => f a
  | .err k => .err k
  | .panic => .panic
  | .fuel => .fuel

instance : Monad E where
  pure a := fun _ => .ok a
  bind m f := fun e => (m e).bind fun a => f a e

/-- `u64` addition. -/
def addU (a b : Nat) : E Nat := fun e =>
  if a + b < 2^64 then .ok (a + b) else if e.checked then .panic else .ok ((a + b) % 2^64)

/-- `u64` subtraction. -/
def subU (a b : Nat) : E Nat := fun e =>
  if b ≤ a then .ok (a - b) else if e.checked then .panic else .ok (2^64 + a - b)

/-- `u64` multiplication. -/
def mulU (a b : Nat) : E Nat := fun e =>
  if a * b < 2^64 then .ok (a * b) else if e.checked then .panic else .ok (a * b % 2^64)

/-- `u64` division; division by zero panics in every profile. -/
def divU (a b : Nat) : E Nat := fun _ => if b = 0 then .panic else .ok (a / b)

/-- `u32` addition. -/
def addU32 (a b : Nat) : E Nat := fun e =>
  if a + b < 2^32 then .ok (a + b) else if e.checked then .panic else .ok ((a + b) % 2^32)

/-- `n as i64` for `n : u64`. -/
def asI64 (n : Nat) : Int := if n < 2^63 then (n : Int) else (n : Int) - 2^64

/-- Two's complement wrap of an integer into the range of `i64`. -/
def wrapI64 (n : Int) : Int := (n + 2^63) % 2^64 - 2^63

/-- `n as u64` for `n : i64`. -/
def asU64 (n : Int) : Nat := (n % 2^64).toNat

/-- `n as u32` for `n : i64`. -/
def asU32 (n : Int) : Nat := (n % 2^32).toNat

/-- `i64` addition. -/
def addI (a b : Int) : E Int := fun e =>
  if -2^63 ≤ a + b ∧ a + b < 2^63 then .ok (a + b)
  else if e.checked then .panic else .ok (wrapI64 (a + b))

/-- `i64` subtraction. -/
def subI (a b : Int) : E Int := fun e =>
  if -2^63 ≤ a - b ∧ a - b < 2^63 then .ok (a - b)
  else if e.checked then .panic else .ok (wrapI64 (a - b))

/-! ### The byte stream -/

/-- A computation reading from a seekable byte stream: environment, content and position to
outcome and new position. The position after an error is irrelevant to every caller. -/
def P (α : Type) := Env → Bytes → Nat → Out (α × Nat)

/-- `m? ; f` on a stream. -/
def P.bind {α β} (m : P α) (f : α → P β) : P β := fun e F p =>
  match m e F p with
  | .ok (a, p') => f a e F p'
  | .err k => .err k
  | .panic => .panic
  | .fuel => .fuel

instance : Monad P where
  pure a := fun _ _ p => .ok (a, p)
  bind := P.bind

/-- Arithmetic inside a parsing function. -/
def E.p {α} (m : E α) : P α := fun e _ p =>
  match m e with
  | .ok a => .ok (a, p)
  | .err k => .err k
  | .panic => .panic
  | .fuel => .fuel

/-- `return Err(..)`. -/
def fail {α} (k : ErrKind) : P α := fun _ _ _ => .err k

/-- A loop that exceeded the allowed number of iterations. -/
def outOfFuel {α} : P α := fun _ _ _ => .fuel

/-- The number of iterations each loop may take. -/
def getFuel : P Nat := fun e _ p => .ok (e.fuel, p)

/-- `Read::read_exact` on a buffer of `n` bytes. Reading zero bytes always succeeds. -/
def readExact (n : Nat) : P Bytes := fun _ F p =>
  if n = 0 ∨ p + n ≤ F.length then .ok ((F.drop p).take n, p + n) else .err .io

/-- `Seek::seek(SeekFrom::Current(n))`. -/
def seekCur (n : Int) : P Unit := fun e _ p =>
  if 0 ≤ (p : Int) + n ∧ (p : Int) + n ≤ e.maxPos then .ok ((), ((p : Int) + n).toNat)
  else .err .io

/-- `Seek::seek(SeekFrom::Current(0))`, the current position. -/
def tellP : P Nat := fun _ _ p => .ok (p, p)

/-- `Seek::seek(SeekFrom::End(0))`, returns the length and moves there. -/
def seekEnd : P Nat := fun _ F _ => .ok (F.length, F.length)

/-- `Seek::seek(SeekFrom::Start(n))`. -/
def seekStart (n : Nat) : P Unit := fun e _ _ =>
  if n ≤ e.maxPos then .ok ((), n) else .err .io

end Mp4
