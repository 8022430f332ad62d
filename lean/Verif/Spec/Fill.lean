import Verif.Spec.Halves
/-
Specification of writing to a file, for a list of items the content of which need not be that of well-formed items. Compare Spec/Update.
-/
namespace Mp4.Spec

/-- A new `meta`, `udta` around an item list. -/
def newMetaB (ib : Box) : Meta := ⟨[0, 0, 0], [hdlrBox, ib]⟩
def newUdtaB (ib : Box) : Udta := [metaKid (newMetaB ib)]

/-- Replace the last item list; or else append one. If there is no handler, it is inserted in front. -/
def Meta.fill (ib : Box) (m : Meta) : Meta :=
  let new := if ∃ b ∈ m.kids, b.fc = cc 'h' 'd' 'l' 'r' then [ib] else [hdlrBox, ib]
  ⟨m.flags, (updLast (fun b => if b.fc = cc 'i' 'l' 's' 't' then some new else none) m.kids).getD (m.kids ++ new)⟩

/-- Change the last `meta`; or else append one. -/
def Udta.fill (ib : Box) (u : Udta) : Udta :=
  (updLast (fun
    | .node ext m => some [.node ext (m.fill ib)]
    | .raw _ => none) u).getD (u ++ [metaKid (newMetaB ib)])

/-- Change the last `udta` and the tracks in front of it; the result is absent if there is no `udta`. -/
def Moov.fillUdta (g : Trak → Trak) (ib : Box) : Moov → Option Moov
  | [] => none
  | k :: ks =>
    match Moov.fillUdta g ib ks with
    | some r => some (k.mapTrak g :: r)
    | none =>
      match k with
      | .udta ext u => some (.udta ext (u.fill ib) :: ks)
      | _ => none

/-- Change the last `udta` and the tracks in front of it; or else change all tracks and append a `udta`. -/
def Moov.fill (g : Trak → Trak) (ib : Box) (m : Moov) : Moov :=
  (m.fillUdta g ib).getD (m.map (MoovKid.mapTrak g) ++ [udtaKid (newUdtaB ib)])

/-- By how much the movie atom (and thereby the file) grows. -/
def File.growthB (f : File) (ib : Box) : Int := (f.moov.fill id ib).ser.length - f.moov.ser.length

/-- The file with another item list. -/
def File.fill (f : File) (ib : Box) : File :=
  { f with moov := f.moov.fill (if f.MediaBehind then Trak.shift (f.growthB ib) else id) ib }

/-- The sizes of the atoms around the item list suffice, compare `File.PutFits`. -/
def File.FillFits (f : File) (ib : Box) : Prop :=
  (f.fill ib).moovBox.Fits ∧
  ∀ k ∈ (f.fill ib).moov, k.box.Fits ∧
    ∀ ext u, k = .udta ext u → ∀ x ∈ u, (Kid.box (cc 'm' 'e' 't' 'a') Meta.ser x).Fits

/-- The item list that is left of entries with UTF-16 texts: what fits into the claimed length. -/
def cutBox (atoms : List AtomData) : Box := mkBox (cc 'i' 'l' 's' 't') ((listBytes atoms).take (listClaim atoms))

end Mp4.Spec
