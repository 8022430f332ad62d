import Verif.Spec.Build
/-
Specification of writing a tag to a file: which atoms are replaced, created and adjusted, as a function on the
tree of atoms.
-/
namespace Mp4.Spec

/-- Replace the last child for which `f` is defined. -/
def updLast {κ : Type} (f : κ → Option (List κ)) : List κ → Option (List κ)
  | [] => none
  | k :: ks =>
    match updLast f ks with
    | some r => some (k :: r)
    | none => (f k).map (· ++ ks)

/-- Apply `f` to the last child for which it is defined. -/
def mapLast {κ : Type} (f : κ → Option κ) (ks : List κ) : List κ :=
  (updLast (fun k => (f k).map ([·])) ks).getD ks

/-! ### The item list and its parents -/

/-- Replace the last item list; or else append one. If there is no handler, it is inserted in front. -/
def Meta.put (atoms : List AtomData) (m : Meta) : Meta :=
  let new := if ∃ b ∈ m.kids, b.fc = cc 'h' 'd' 'l' 'r' then [ilstBox atoms] else [hdlrBox, ilstBox atoms]
  ⟨m.flags, (updLast (fun b => if b.fc = cc 'i' 'l' 's' 't' then some new else none) m.kids).getD (m.kids ++ new)⟩

/-- Change the last `meta`; or else append one. -/
def Udta.put (atoms : List AtomData) (u : Udta) : Udta :=
  (updLast (fun
    | .node ext m => some [.node ext (m.put atoms)]
    | .raw _ => none) u).getD (u ++ [metaKid (newMeta atoms)])

/-- Change the tracks with `g`. -/
def MoovKid.mapTrak (g : Trak → Trak) : MoovKid → MoovKid
  | .trak ext t => .trak ext (g t)
  | .udta ext u => .udta ext u
  | .raw b => .raw b

/-- Change the last `udta` and the tracks in front of it; the result is absent if there is no `udta`. -/
def Moov.putUdta (g : Trak → Trak) (atoms : List AtomData) : Moov → Option Moov
  | [] => none
  | k :: ks =>
    match Moov.putUdta g atoms ks with
    | some r => some (k.mapTrak g :: r)
    | none =>
      match k with
      | .udta ext u => some (.udta ext (u.put atoms) :: ks)
      | _ => none

/-- Change the last `udta` and the tracks in front of it; or else change all tracks and append a `udta`. -/
def Moov.put (g : Trak → Trak) (atoms : List AtomData) (m : Moov) : Moov :=
  (m.putUdta g atoms).getD (m.map (MoovKid.mapTrak g) ++ [udtaKid (newUdta atoms)])

/-! ### Chunk offset tables -/

/-- A big-endian number. -/
def num (b : Bytes) : Nat := b.foldl (fun n x => 256 * n + x.toNat) 0

/-- The first `n` pieces of `w` bytes. -/
def pieces (w : Nat) : Nat → Bytes → List Bytes
  | 0, _ => []
  | n+1, b => b.take w :: pieces w n (b.drop w)

/-- The chunk offsets of a `stco` (width 4) or `co64` (width 8) atom: they follow version, flags and their number. -/
def offsets (w : Nat) (body : Bytes) : List Nat := (pieces w ((body.length - 8) / w) (body.drop 8)).map num

/-- An offset as stored. -/
def encOffset (w n : Nat) : Bytes := if w = 8 then be64 n else be32 n

/-- Change all offsets. -/
def mapOffsets (w : Nat) (f : Nat → Nat) (body : Bytes) : Bytes :=
  body.take 8 ++ (offsets w body).flatMap fun o => encOffset w (f o)

/-- Version 0, and the size matches the number of entries. Offsets are below 2^62, the bound for file lengths. -/
def TableWF (w : Nat) (body : Bytes) : Prop :=
  ∃ flags n, flags.length = 3 ∧ n < 2^32 ∧ body.take 8 = 0 :: flags ++ be32 n ∧ body.length = 8 + w * n ∧
    ∀ o ∈ offsets w body, o < 2^62

/-- Adding a signed number. -/
def shiftBy (d : Int) (o : Nat) : Nat := ((o + d) % 2^64).toNat

/-- Shift the offsets of the last `stco` and of the last `co64`. -/
def Stbl.shift (d : Int) (s : Stbl) : Stbl :=
  mapLast (fun b => if b.fc = cc 'c' 'o' '6' '4' then some ⟨b.ext, b.fc, mapOffsets 8 (shiftBy d) b.body⟩ else none)
    (mapLast (fun b => if b.fc = cc 's' 't' 'c' 'o' then some ⟨b.ext, b.fc, mapOffsets 4 (shiftBy d) b.body⟩ else none) s)

/-- Apply `f` to an interpreted child. -/
def Kid.mapNode {α : Type} (f : α → α) : Kid α → Option (Kid α)
  | .node ext a => some (.node ext (f a))
  | .raw _ => none

def Minf.shift (d : Int) (m : Minf) : Minf := mapLast (Kid.mapNode (Stbl.shift d)) m
def Mdia.shift (d : Int) (m : Mdia) : Mdia := mapLast (Kid.mapNode (Minf.shift d)) m
def Trak.shift (d : Int) (m : Trak) : Trak := mapLast (Kid.mapNode (Mdia.shift d)) m

/-- The chunk offset tables that count are well-formed: the last one of each kind, in the last atom of each kind. -/
def Stbl.Tables (s : Stbl) : Prop :=
  (∀ body, (s.filterMap (Box.sel (cc 's' 't' 'c' 'o'))).getLast? = some body → TableWF 4 body) ∧
  (∀ body, (s.filterMap (Box.sel (cc 'c' 'o' '6' '4'))).getLast? = some body → TableWF 8 body)
def Minf.Tables (m : Minf) : Prop := ∀ s, (m.filterMap Kid.sel).getLast? = some s → s.Tables
def Mdia.Tables (m : Mdia) : Prop := ∀ s, (m.filterMap Kid.sel).getLast? = some s → s.Tables
def Trak.Tables (m : Trak) : Prop := ∀ s, (m.filterMap Kid.sel).getLast? = some s → s.Tables
def Moov.Tables (m : Moov) : Prop := ∀ ext t, MoovKid.trak ext t ∈ m → t.Tables

/-! ### The file -/

/-- By how much the movie atom (and thereby the file) grows. -/
def File.growth (f : File) (atoms : List AtomData) : Int :=
  (f.moov.put id atoms).ser.length - f.moov.ser.length

/-- There is media data behind the movie atom. -/
def File.MediaBehind (f : File) : Prop := ∃ b ∈ f.post, b.fc = cc 'm' 'd' 'a' 't'

instance (f : File) : Decidable f.MediaBehind := by unfold File.MediaBehind; infer_instance

/-- What writing makes of a file. -/
def File.put (f : File) (atoms : List AtomData) : File :=
  { f with moov := f.moov.put (if f.MediaBehind then Trak.shift (f.growth atoms) else id) atoms }

/-- After writing, the 32 bit sizes of the atoms around the item list suffice. (The sizes of created atoms always do.) -/
def File.PutFits (f : File) (atoms : List AtomData) : Prop :=
  (f.put atoms).moovBox.Fits ∧
  ∀ k ∈ (f.put atoms).moov, k.box.Fits ∧
    ∀ ext u, k = .udta ext u → ∀ x ∈ u, (Kid.box (cc 'm' 'e' 't' 'a') Meta.ser x).Fits

/-- Whether created `meta` and `udta` atoms have a 32 or 64 bit size is the same for both lists of items. (It depends only on
whether there are 4 GiB of metadata.) -/
def SameForm (a b : List AtomData) : Prop :=
  (2^32 ≤ (newMeta a).ser.length + 8 ↔ 2^32 ≤ (newMeta b).ser.length + 8) ∧
  (2^32 ≤ (newUdta a).ser.length + 8 ↔ 2^32 ≤ (newUdta b).ser.length + 8)

/-- 64 bit chunk offsets stay below 2^62 when shifted. -/
def Stbl.InRange (d : Int) (s : Stbl) : Prop :=
  ∀ body, (s.filterMap (Box.sel (cc 'c' 'o' '6' '4'))).getLast? = some body → ∀ o ∈ offsets 8 body, shiftBy d o < 2^62
def Minf.InRange (d : Int) (m : Minf) : Prop := ∀ s, (m.filterMap Kid.sel).getLast? = some s → s.InRange d
def Mdia.InRange (d : Int) (m : Mdia) : Prop := ∀ s, (m.filterMap Kid.sel).getLast? = some s → s.InRange d
def Trak.InRange (d : Int) (m : Trak) : Prop := ∀ s, (m.filterMap Kid.sel).getLast? = some s → s.InRange d
def Moov.InRange (d : Int) (m : Moov) : Prop := ∀ ext t, MoovKid.trak ext t ∈ m → t.InRange d

/-! ### Chunk offsets of a track -/

/-- The offsets of the last chunk offset tables of either kind. -/
def Stbl.chunks (s : Stbl) : List Nat :=
  (((s.filterMap (Box.sel (cc 's' 't' 'c' 'o'))).getLast?).map (offsets 4)).getD [] ++
  (((s.filterMap (Box.sel (cc 'c' 'o' '6' '4'))).getLast?).map (offsets 8)).getD []
def Minf.chunks (m : Minf) : List Nat := (((m.filterMap Kid.sel).getLast?).map Stbl.chunks).getD []
def Mdia.chunks (m : Mdia) : List Nat := (((m.filterMap Kid.sel).getLast?).map Minf.chunks).getD []
def Trak.chunks (m : Trak) : List Nat := (((m.filterMap Kid.sel).getLast?).map Mdia.chunks).getD []

/-- Chunk offsets of `stco` and `co64`, separately. -/
def Stbl.chunks32 (s : Stbl) : List Nat := (((s.filterMap (Box.sel (cc 's' 't' 'c' 'o'))).getLast?).map (offsets 4)).getD []
def Minf.chunks32 (m : Minf) : List Nat := (((m.filterMap Kid.sel).getLast?).map Stbl.chunks32).getD []
def Mdia.chunks32 (m : Mdia) : List Nat := (((m.filterMap Kid.sel).getLast?).map Minf.chunks32).getD []
def Trak.chunks32 (m : Trak) : List Nat := (((m.filterMap Kid.sel).getLast?).map Mdia.chunks32).getD []

end Mp4.Spec
