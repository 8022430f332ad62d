import Verif.Model.Data
/-
Atom heads (src/atom/head.rs) and the loop shared by all container atoms.
-/
namespace Mp4

/-- src/atom/head.rs:10-17 -/
structure Size where
  ext : Bool
  len : Nat
deriving DecidableEq, Repr

/-- `Size::from` (src/atom/head.rs:20-27). The additions cannot overflow for lengths of data in
memory. -/
def Size.ofContent (contentLen : Nat) : Size :=
  let len := contentLen + 8
  if len > 2^32 - 1 then ⟨true, len + 8⟩ else ⟨false, len⟩

/-- `Size::head_len` (src/atom/head.rs:37-42). -/
def Size.headLen (s : Size) : Nat := if s.ext then 16 else 8

/-- `Size::content_len` (src/atom/head.rs:44-49). -/
def Size.contentLen (s : Size) : E Nat := subU s.len (if s.ext then 16 else 8)

/-- src/atom/head.rs:59-64 -/
structure Head where
  size : Size
  fourcc : Fourcc
deriving DecidableEq, Repr

/-- `parse_head` (src/atom/head.rs:101-135). -/
def parseHead : P Head := do
  let len ← readU32
  let ident ← readExact 4
  let ident : Fourcc := ⟨ident.getD 0 0, ident.getD 1 0, ident.getD 2 0, ident.getD 3 0⟩
  if len = 1 then do
    let l ← readU64
    pure ⟨⟨true, l⟩, ident⟩
  else if len < 8 then fail .parsing
  else pure ⟨⟨false, len⟩, ident⟩

/-- `parse_full_head` (src/atom/head.rs:155-175). -/
def parseFullHead : P (UInt8 × Bytes) := do
  let version ← readU8
  let flags ← readExact 3
  pure (version, flags)

/-- src/atom/head.rs:183-187 -/
structure AtomBounds where
  pos : Nat
  size : Size
deriving DecidableEq, Repr

/-- `AtomBounds::content_pos` (src/atom/head.rs:206-208). -/
def AtomBounds.contentPos (b : AtomBounds) : E Nat := addU b.pos b.size.headLen

/-- `AtomBounds::end` (src/atom/head.rs:210-212). -/
def AtomBounds.end_ (b : AtomBounds) : E Nat := addU b.pos b.size.len

/-- `find_bounds` (src/atom/head.rs:215-218). -/
def findBounds (size : Size) : P AtomBounds := do
  let cur ← tellP
  let pos ← (subU cur size.headLen).p
  pure ⟨pos, size⟩

/-- `seek_to_end` (src/atom/head.rs:220-225). -/
def seekToEnd (b : AtomBounds) : P Unit := do
  let current ← tellP
  let end_ ← b.end_.p
  let diff ← (subU end_ current).p
  seekCur (asI64 diff)

/-- `reader.seek(SeekFrom::Current(head.content_len() as i64))`, the default branch of every
container loop (e.g. src/atom/moov.rs:26-28). -/
def skipContent (h : Head) : P Unit := do
  let n ← h.size.contentLen.p
  seekCur (asI64 n)

/-- The loop of every container atom (e.g. src/atom/moov.rs:19-32):
`while parsed_bytes < limit { let head = parse_head(reader)?; <handle>; parsed_bytes += head.len() }`.
`limit` is evaluated on every iteration; `handle` is the `match` on the identifier, updating the
local variables of the function (`σ`). The first argument bounds the iterations. -/
def walk {σ : Type} (limit : E Nat) (handle : σ → Head → P σ) : Nat → σ → Nat → P σ
  | 0, _, _ => outOfFuel
  | f+1, s, parsed => do
    let lim ← limit.p
    if parsed < lim then do
      let head ← parseHead
      let s' ← handle s head
      let parsed' ← (addU parsed head.size.len).p
      walk limit handle f s' parsed'
    else pure s

/-- `walk` with the iteration bound of the environment. -/
def loop {σ : Type} (limit : E Nat) (handle : σ → Head → P σ) (s : σ) (parsed : Nat) : P σ := do
  let f ← getFuel
  walk limit handle f s parsed

end Mp4
