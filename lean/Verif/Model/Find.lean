import Verif.Model.Read
/-
The search phase of `write_tag_to`: the `FindAtom` implementations.
-/
namespace Mp4

/-- `find_atom` of the leaf atoms `stco`, `co64`, `hdlr`, `ilst`, `mdat` (src/atom/stco.rs:59-67,
src/atom/co64.rs:59-67, src/atom/hdlr.rs:54-62, src/atom/ilst.rs:90-98, src/atom/mdat.rs:21-29). -/
def findLeaf (size : Size) : P AtomBounds := do
  let bounds ← findBounds size
  seekToEnd bounds
  pure bounds

/-- src/atom/stbl.rs:36-40 -/
structure StblBounds where
  bounds : AtomBounds
  stco : Option AtomBounds := none
  co64 : Option AtomBounds := none
deriving DecidableEq, Repr

/-- `Stbl::find_atom` (src/atom/stbl.rs:42-67). -/
def findStbl (size : Size) : P StblBounds := do
  let bounds ← findBounds size
  loop size.contentLen (fun (s : StblBounds) h =>
    if h.fourcc = SAMPLE_TABLE_CHUNK_OFFSET then do
      let a ← findLeaf h.size; pure { s with stco := some a }
    else if h.fourcc = SAMPLE_TABLE_CHUNK_OFFSET_64 then do
      let a ← findLeaf h.size; pure { s with co64 := some a }
    else do skipContent h; pure s) { bounds } 0

/-- `Minf::find_atom` (src/atom/minf.rs:39-62); only `stbl` of the bounds is ever used
(src/atom/mod.rs:460-462), so the own bounds of `minf`, `mdia` and `trak` are computed and dropped. -/
def findMinf (size : Size) : P (Option StblBounds) := do
  let _ ← findBounds size
  loop size.contentLen (fun s h =>
    if h.fourcc = SAMPLE_TABLE then do let a ← findStbl h.size; pure (some a)
    else do skipContent h; pure s) none 0

/-- `Mdia::find_atom` (src/atom/mdia.rs:39-62). -/
def findMdia (size : Size) : P (Option (Option StblBounds)) := do
  let _ ← findBounds size
  loop size.contentLen (fun s h =>
    if h.fourcc = MEDIA_INFORMATION then do let a ← findMinf h.size; pure (some a)
    else do skipContent h; pure s) none 0

/-- `Trak::find_atom` (src/atom/trak.rs:39-62). -/
def findTrak (size : Size) : P (Option (Option (Option StblBounds))) := do
  let _ ← findBounds size
  loop size.contentLen (fun s h =>
    if h.fourcc = MEDIA then do let a ← findMdia h.size; pure (some a)
    else do skipContent h; pure s) none 0

/-- src/atom/meta.rs:77-81 -/
structure MetaBounds where
  bounds : AtomBounds
  hdlr : Option AtomBounds := none
  ilst : Option AtomBounds := none
deriving DecidableEq, Repr

/-- `Meta::find_atom` (src/atom/meta.rs:91-125). -/
def findMeta (size : Size) : P MetaBounds := do
  let bounds ← findBounds size
  let (version, _) ← parseFullHead
  if version ≠ 0 then fail (.unknownVersion version)
  else
    loop size.contentLen (fun (s : MetaBounds) h =>
      if h.fourcc = HANDLER_REFERENCE then do
        let a ← findLeaf h.size; pure { s with hdlr := some a }
      else if h.fourcc = ITEM_LIST then do
        let a ← findLeaf h.size; pure { s with ilst := some a }
      else do skipContent h; pure s) { bounds } 4

/-- src/atom/udta.rs:48-51 -/
structure UdtaBounds where
  bounds : AtomBounds
  meta? : Option MetaBounds := none
deriving DecidableEq, Repr

/-- `Udta::find_atom` (src/atom/udta.rs:61-84). -/
def findUdta (size : Size) : P UdtaBounds := do
  let bounds ← findBounds size
  loop size.contentLen (fun (s : UdtaBounds) h =>
    if h.fourcc = METADATA then do let a ← findMeta h.size; pure { s with meta? := some a }
    else do skipContent h; pure s) { bounds } 0

/-- src/atom/moov.rs:52-56 -/
structure MoovBounds where
  bounds : AtomBounds
  trak : List (Option (Option (Option StblBounds))) := []
  udta : Option UdtaBounds := none
deriving DecidableEq, Repr

/-- `Moov::find_atom` (src/atom/moov.rs:66-91). -/
def findMoov (size : Size) : P MoovBounds := do
  let bounds ← findBounds size
  loop size.contentLen (fun (s : MoovBounds) h =>
    if h.fourcc = TRACK then do let a ← findTrak h.size; pure { s with trak := s.trak ++ [a] }
    else if h.fourcc = USER_DATA then do let a ← findUdta h.size; pure { s with udta := some a }
    else do skipContent h; pure s) { bounds } 0

/-- The local variables of the top level loop of `write_tag_to` (src/atom/mod.rs:363-364). -/
structure TopBounds where
  moov : Option MoovBounds := none
  mdat : Option AtomBounds := none
deriving DecidableEq, Repr

/-- The search phase of `write_tag_to` (src/atom/mod.rs:360-387): the position of the last `mdat`
(0 if there is none) and the bounds of the last `moov`. -/
def findTop : P (Nat × MoovBounds) := do
  let _ ← parseFtyp
  let len ← remainingStreamLen
  let s ← loop (pure len) (fun (s : TopBounds) h =>
    if h.fourcc = MOVIE then do let a ← findMoov h.size; pure { s with moov := some a }
    else if h.fourcc = MEDIA_DATA then do let a ← findLeaf h.size; pure { s with mdat := some a }
    else do skipContent h; pure s) {} 0
  let mdatPos := match s.mdat with
    | some b => b.pos
    | none => 0
  match s.moov with
  | some m => pure (mdatPos, m)
  | none => fail (.atomNotFound MOVIE)

/-- The loop reading a chunk offset table (src/atom/stco.rs:32-35, src/atom/co64.rs:32-35). -/
def readTable (width : Nat) : Nat → P (List Nat)
  | 0 => pure []
  | n+1 => do
    let b ← readExact width
    let rest ← readTable width n
    pure (beNat b :: rest)

/-- `Stco::parse_atom` (src/atom/stco.rs:16-45) and `Co64::parse_atom` (src/atom/co64.rs:16-45),
which differ only in the width of the entries: position of the table and its entries.
The product cannot overflow: there are less than 2^32 entries. -/
def parseTable (width : Nat) (size : Size) : P (Nat × List Nat) := do
  let (version, _) ← parseFullHead
  if version = 0 then do
    let entries ← readU32
    let content ← size.contentLen.p
    if 8 + width * entries ≠ content then fail .parsing
    else do
      let tablePos ← tellP
      let offsets ← readTable width entries
      pure (tablePos, offsets)
  else fail (.unknownVersion version)

end Mp4
