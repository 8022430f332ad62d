import Verif.Model.Write
import Verif.Spec.Update
/-
What a save writes: how many bytes and which.
-/
namespace Mp4.Spec

/-- The last child with `sel` and the children behind it. -/
def lastOf {κ β : Type} (sel : κ → Option β) : List κ → Option (β × List κ)
  | [] => none
  | k :: ks => (lastOf sel ks).or ((sel k).map fun b => (b, ks))

/-- The bytes of a size: a 64 bit size is announced by a 32 bit one. -/
def fieldLen (ext : Bool) : Nat := if ext then 12 else 4

/-- The parts of a change: the bytes of the sizes that are updated, the atoms that are inserted, the bytes behind them. -/
structure Change where
  fields : Nat
  fresh : Bytes
  behind : Bytes

/-- In `meta`, the last item list is replaced; a handler is inserted if there is none. -/
def Meta.change (atoms : List AtomData) (m : Meta) : Change where
  fields := 0
  fresh := serL id (if ∃ b ∈ m.kids, b.fc = cc 'h' 'd' 'l' 'r' then [ilstBox atoms] else [hdlrBox, ilstBox atoms])
  behind := match lastOf (Box.sel (cc 'i' 'l' 's' 't')) m.kids with
    | some (_, B) => serL id B
    | none => []

/-- A `meta` and the form of its size. -/
def metaOf : Kid Meta → Option (Bool × Meta)
  | .node ext m => some (ext, m)
  | .raw _ => none

/-- A `udta` and the form of its size. -/
def udtaOf : MoovKid → Option (Bool × Udta)
  | .udta ext u => some (ext, u)
  | _ => none

/-- In `udta`, the last `meta` is changed or a new one appended. -/
def Udta.change (atoms : List AtomData) (u : Udta) : Change :=
  match lastOf metaOf u with
  | some ((ext, m), B) =>
    ⟨fieldLen ext + (m.change atoms).fields, (m.change atoms).fresh, (m.change atoms).behind ++ serL (Kid.box (cc 'm' 'e' 't' 'a') Meta.ser) B⟩
  | none => ⟨0, (mkBox (cc 'm' 'e' 't' 'a') (newMeta atoms).ser).ser, []⟩

/-- In `moov`, the last `udta` is changed or a new one appended. -/
def Moov.change (atoms : List AtomData) (m : Moov) : Change :=
  match lastOf udtaOf m with
  | some ((ext, u), B) =>
    ⟨fieldLen ext + (u.change atoms).fields, (u.change atoms).fresh, (u.change atoms).behind ++ serL MoovKid.box B⟩
  | none => ⟨0, (mkBox (cc 'u' 'd' 't' 'a') (newUdta atoms).ser).ser, []⟩

/-- In the file, the movie atom is changed. -/
def File.change (atoms : List AtomData) (f : File) : Change :=
  ⟨fieldLen f.moovExt + (f.moov.change atoms).fields, (f.moov.change atoms).fresh, (f.moov.change atoms).behind ++ serL id f.post⟩

/-- The bytes of the chunk offsets of a track. -/
def Trak.offsetBytes (t : Trak) : Nat := 4 * t.chunks32.length + 8 * (t.chunks.length - t.chunks32.length)

/-- The bytes of all chunk offsets. -/
def Moov.offsetBytes : Moov → Nat
  | [] => 0
  | .trak _ t :: ks => t.offsetBytes + Moov.offsetBytes ks
  | _ :: ks => Moov.offsetBytes ks

/-- The number of tracks. -/
def Moov.tracks : Moov → Nat
  | [] => 0
  | .trak _ _ :: ks => 1 + Moov.tracks ks
  | _ :: ks => Moov.tracks ks

/-- The bytes of the chunk offsets that are adjusted: all, if there is media data behind the movie atom. -/
def File.adjusted (f : File) : Nat := if f.MediaBehind then f.moov.offsetBytes else 0

/-- The number of bytes a system call writes. -/
def opBytes : Op → Nat
  | .write _ b => b.length
  | .setLen _ => 0

/-- The number of bytes that are written. -/
def written (ops : List Op) : Nat := (ops.map opBytes).sum

end Mp4.Spec
