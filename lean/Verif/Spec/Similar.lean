import Verif.Spec.Content
/-
Files that differ only in what a reader of metadata ignores: unknown atoms, the form of sizes,
details of the encoding of leaves.
-/
namespace Mp4.Spec

/-- Two encodings of the same value. -/
def SameAs {β γ} (R : β → γ → Prop) (b c : β) : Prop := ∃ g, R b g ∧ R c g

/-- What is left of a sample table, media information, media, track, metadata, user data, movie if only
the interpreted atoms are kept, and only their bodies. -/
def Stbl.core (s : Stbl) : List Bytes := s.filterMap (Box.sel (cc 's' 't' 's' 'd'))
def Minf.core (s : Minf) : List (List Bytes) := (s.filterMap Kid.sel).map Stbl.core
def Mdia.core (s : Mdia) : List (List (List Bytes)) := (s.filterMap Kid.sel).map Minf.core
def Trak.core (s : Trak) : List (List (List (List Bytes))) := (s.filterMap Kid.sel).map Mdia.core
def Meta.core (m : Meta) : List Bytes := m.kids.filterMap (Box.sel (cc 'i' 'l' 's' 't'))
def Udta.core (u : Udta) : List (List Bytes) := (u.filterMap Kid.sel).map Meta.core

/-- What is left of a movie. -/
structure MoovCore where
  mvhd : List Bytes
  traks : List (List (List (List (List Bytes))))
  udtas : List (List (List Bytes))
deriving DecidableEq, Repr

def Moov.core (m : Moov) : MoovCore :=
  ⟨m.filterMap MoovKid.mvhd?, (m.filterMap MoovKid.trak?).map Trak.core, (m.filterMap MoovKid.udta?).map Udta.core⟩

/-- Two files with the same interpreted atoms: they may differ in any other atom, anywhere, and in the
form (32 or 64 bit) of every size of an atom outside of `stsd` and `ilst`. -/
def SameCore (f g : File) : Prop := f.ftyp = g.ftyp ∧ f.moov.core = g.moov.core

instance (f g : File) : Decidable (SameCore f g) := by unfold SameCore; infer_instance

/-- Two files whose interpreted atoms encode the same values: beyond `SameCore`, they may differ in
unknown sample entries and descriptors, unknown parts of items, `free` atoms of the item list, and in
sizes inside of `stsd` and `ilst`. -/
def Similar (f g : File) : Prop :=
  f.ftyp = g.ftyp ∧
  All2 (SameAs MvhdBody) f.moov.core.mvhd g.moov.core.mvhd ∧
  All2 (All2 (All2 (All2 (All2 (SameAs StsdBody))))) f.moov.core.traks g.moov.core.traks ∧
  All2 (All2 (All2 (SameAs IlstBody))) f.moov.core.udtas g.moov.core.udtas

/-! ### Leaves -/

/-- Not an unknown part. -/
def Part.known : Part → Bool
  | .other _ => false
  | _ => true

/-- An item without unknown parts. -/
def Entry.trim : Entry → Entry
  | .item ext fc parts => .item ext fc (parts.filter Part.known)
  | x => x

def Entry.isItem : Entry → Bool
  | .item .. => true
  | .free .. => false

/-- The same with all sizes in the 32 bit form. -/
def Part.noExt : Part → Part
  | .data _ c l p v => .data false c l p v
  | .mean _ f s => .mean false f s
  | .name _ f s => .name false f s
  | .other b => .other { b with ext := false }

def Entry.noExt : Entry → Entry
  | .item _ fc parts => .item false fc (parts.map Part.noExt)
  | .free _ body => .free false body

end Mp4.Spec
