import Verif.Spec.Update
/-
What may be said about a file before and after writing without reference to the function that computes the
result: which atoms are kept, what is inserted and removed, what chunk offsets designate.
-/
namespace Mp4.Spec

/-! ### Tracks up to chunk offsets -/

/-- Forget the entries of a chunk offset table, but not their number. -/
def Box.blank (b : Box) : Box :=
  if b.fc = cc 's' 't' 'c' 'o' ∨ b.fc = cc 'c' 'o' '6' '4' then
    ⟨b.ext, b.fc, b.body.take 8 ++ List.replicate (b.body.length - 8) 0⟩
  else b

def Kid.map {α : Type} (f : α → α) : Kid α → Kid α
  | .node ext a => .node ext (f a)
  | .raw b => .raw b

def Stbl.blank (s : Stbl) : Stbl := s.map Box.blank
def Minf.blank (m : Minf) : Minf := m.map (Kid.map Stbl.blank)
def Mdia.blank (m : Mdia) : Mdia := m.map (Kid.map Minf.blank)
def Trak.blank (m : Trak) : Trak := m.map (Kid.map Mdia.blank)

/-! ### The tree -/

/-- At most an item list is replaced, by an item list and perhaps a handler. -/
def MetaKept (m m' : Meta) : Prop :=
  m'.flags = m.flags ∧ ∃ A old new B, m.kids = A ++ old ++ B ∧ m'.kids = A ++ new ++ B ∧
    old.length ≤ 1 ∧ (∀ b ∈ old, b.fc = cc 'i' 'l' 's' 't') ∧
    ((∃ il, new = [il] ∧ il.fc = cc 'i' 'l' 's' 't') ∨
     (∃ h il, new = [h, il] ∧ h.fc = cc 'h' 'd' 'l' 'r' ∧ il.fc = cc 'i' 'l' 's' 't' ∧ ∀ b ∈ m.kids, b.fc ≠ cc 'h' 'd' 'l' 'r'))

/-- One `meta` is changed, or one is appended if there is none. -/
def UdtaKept (u u' : Udta) : Prop :=
  (∃ A ext m m' B, u = A ++ .node ext m :: B ∧ u' = A ++ .node ext m' :: B ∧ MetaKept m m') ∨
  (u.filterMap Kid.sel = [] ∧ ∃ ext m, u' = u ++ [.node ext m])

/-- The same child, except for chunk offsets. -/
def KidKept : MoovKid → MoovKid → Prop
  | .trak ext t, .trak ext' t' => ext' = ext ∧ t'.blank = t.blank
  | .udta ext u, k => k = .udta ext u
  | .raw b, k => k = .raw b
  | _, _ => False

/-- One `udta` is changed, or one is appended if there is none; everything else is kept except for chunk offsets. -/
def MoovKept (m m' : Moov) : Prop :=
  (∃ A A' ext u u' B B', m = A ++ .udta ext u :: B ∧ m' = A' ++ .udta ext u' :: B' ∧ UdtaKept u u' ∧
    All2 KidKept A A' ∧ All2 KidKept B B') ∨
  (m.filterMap MoovKid.udta? = [] ∧ ∃ A' ext u, m' = A' ++ [.udta ext u] ∧ All2 KidKept m A')

/-! ### What is inserted and removed -/

def Moov.lastUdta (m : Moov) : Option Udta := (m.filterMap MoovKid.udta?).getLast?
def Udta.lastMeta (u : Udta) : Option Meta := (u.filterMap Kid.sel).getLast?
def Meta.lastIlst (m : Meta) : Option Box := (m.kids.filter (·.fc = cc 'i' 'l' 's' 't')).getLast?

/-- The bytes inserted: an item list, and whatever is missing around it. -/
def Meta.inserted (m : Meta) (atoms : List AtomData) : Bytes :=
  (if ∃ b ∈ m.kids, b.fc = cc 'h' 'd' 'l' 'r' then [] else hdlrBox.ser) ++ (ilstBox atoms).ser
def Udta.inserted (u : Udta) (atoms : List AtomData) : Bytes :=
  match u.lastMeta with
  | some m => m.inserted atoms
  | none => (Kid.box (cc 'm' 'e' 't' 'a') Meta.ser (metaKid (newMeta atoms))).ser
def Moov.inserted (m : Moov) (atoms : List AtomData) : Bytes :=
  match m.lastUdta with
  | some u => u.inserted atoms
  | none => (udtaKid (newUdta atoms)).box.ser

/-- The bytes removed: the item list that was in effect. -/
def Moov.removed (m : Moov) : Bytes :=
  match (m.lastUdta.bind Udta.lastMeta).bind Meta.lastIlst with
  | some il => il.ser
  | none => []

/-! ### Chunk offsets -/

/-- The tracks. -/
def Moov.traks (m : Moov) : List Trak := m.filterMap MoovKid.trak?

/-- No track behind the last user data atom. -/
def Moov.TraksFirst (m : Moov) : Prop :=
  ∀ A ext u B, m = A ++ .udta ext u :: B → B.filterMap MoovKid.udta? = [] → B.filterMap MoovKid.trak? = []

/-- `n` bytes at position `o`. -/
def bytesAt (F : Bytes) (o n : Nat) : Bytes := (F.drop o).take n

/-- The `n` bytes at position `o` are part of an `mdat` of the file, which starts at position `p`. -/
def File.InMdat (f : File) (p o n : Nat) : Prop :=
  (∃ A b B, f.pre = A ++ b :: B ∧ b.fc = cc 'm' 'd' 'a' 't' ∧
    p + f.ftypBox.ser.length + (serL id A).length ≤ o ∧
    o + n ≤ p + f.ftypBox.ser.length + (serL id A).length + b.ser.length) ∨
  (∃ A b B, f.post = A ++ b :: B ∧ b.fc = cc 'm' 'd' 'a' 't' ∧
    p + f.ftypBox.ser.length + (serL id f.pre).length + f.moovBox.ser.length + (serL id A).length ≤ o ∧
    o + n ≤ p + f.ftypBox.ser.length + (serL id f.pre).length + f.moovBox.ser.length + (serL id A).length + b.ser.length)

/-- There is media data in front of the movie atom. -/
def File.MediaFront (f : File) : Prop := ∃ b ∈ f.pre, b.fc = cc 'm' 'd' 'a' 't'

end Mp4.Spec
