import Verif.Spec.Content
/-
Specification of files that are well-formed up to a first defect, together with the error that describes
the defect: an unknown version, an unknown data type, text that is not decodable, a missing mandatory atom.
-/
namespace Mp4.Spec

/-- A list of good children, then a bad one, then anything. -/
def FirstBad {κ} (box : κ → Box) (good : κ → Prop) (bad : Box → ErrKind → Prop) (b : Bytes) (k : ErrKind) : Prop :=
  ∃ (ks : List κ) (c : Box) (rest : Bytes), (∀ x ∈ ks, (box x).Fits ∧ good x) ∧ c.Fits ∧ bad c k ∧
    b = serL box ks ++ c.ser ++ rest

/-- The content of a full atom with a version other than 0. -/
def BadVersion (b : Bytes) (k : ErrKind) : Prop :=
  ∃ (v : UInt8) (flags rest : Bytes), v ≠ 0 ∧ flags.length = 3 ∧ b = v :: flags ++ rest ∧ k = .unknownVersion v

/-- A part of an item that cannot be decoded. -/
inductive PartBad : Box → ErrKind → Prop where
  | version (c k) : c.fc = cc 'd' 'a' 't' 'a' ∨ c.fc = cc 'm' 'e' 'a' 'n' ∨ c.fc = cc 'n' 'a' 'm' 'e' →
      BadVersion c.body k → PartBad c k
  | type (ext code locale payload) : code < 2^24 → code ∉ [0, 1, 2, 13, 14, 21, 27] → locale.length = 4 →
      PartBad ⟨ext, cc 'd' 'a' 't' 'a', be32 code ++ locale ++ payload⟩ (.unknownDataType code)
  | utf8 (ext locale payload) : locale.length = 4 → (∀ s, utf8 s ≠ payload) →
      PartBad ⟨ext, cc 'd' 'a' 't' 'a', be32 1 ++ locale ++ payload⟩ .utf8StringDecoding
  | utf16 (ext locale payload) : locale.length = 4 → (∀ s odd, odd.length ≤ 1 → utf16be s ++ odd ≠ payload) →
      PartBad ⟨ext, cc 'd' 'a' 't' 'a', be32 2 ++ locale ++ payload⟩ .utf16StringDecoding
  | mean (ext flags payload) : flags.length = 3 → (∀ s, utf8 s ≠ payload) →
      PartBad ⟨ext, cc 'm' 'e' 'a' 'n', 0 :: flags ++ payload⟩ .utf8StringDecoding
  | name (ext flags payload) : flags.length = 3 → (∀ s, utf8 s ≠ payload) →
      PartBad ⟨ext, cc 'n' 'a' 'm' 'e', 0 :: flags ++ payload⟩ .utf8StringDecoding

/-- An item with a bad part, or without a value. -/
def ItemBad (c : Box) (k : ErrKind) : Prop :=
  c.fc ≠ cc 'f' 'r' 'e' 'e' ∧
  (FirstBad Part.box Part.WF PartBad c.body k ∨
   ∃ parts : List Part, (∀ p ∈ parts, p.WF) ∧ parts.filterMap Part.value? = [] ∧ c.body = serL Part.box parts ∧
     k = .atomNotFound (cc 'd' 'a' 't' 'a'))

def IlstBad (b : Bytes) (k : ErrKind) : Prop := FirstBad Entry.box Entry.WF ItemBad b k

/-- A child that is not of kind `fc`, or good. -/
def GoodLeaf {γ} (fc : Fourcc) (R : Bytes → γ → Prop) (x : Box) : Prop := x.fc = fc → ∃ g, R x.body g

/-- A child of kind `fc` with bad content. -/
def BadLeaf (fc : Fourcc) (bad : Bytes → ErrKind → Prop) (c : Box) (k : ErrKind) : Prop := c.fc = fc ∧ bad c.body k

def MetaBad (b : Bytes) (k : ErrKind) : Prop :=
  BadVersion b k ∨
  ∃ flags b', flags.length = 3 ∧ b = 0 :: flags ++ b' ∧
    FirstBad id (GoodLeaf (cc 'i' 'l' 's' 't') IlstBody) (BadLeaf (cc 'i' 'l' 's' 't') IlstBad) b' k

/-- A well-formed child whose content means something. -/
def GoodKid {α γ} (fc : Fourcc) (ser : α → Bytes) (W : α → Prop) (R : α → γ → Prop) (k : Kid α) : Prop :=
  k.WF fc ser W ∧ ∀ a, k.sel = some a → ∃ g, R a g

def UdtaBad (b : Bytes) (k : ErrKind) : Prop :=
  FirstBad (Kid.box (cc 'm' 'e' 't' 'a') Meta.ser) (GoodKid (cc 'm' 'e' 't' 'a') Meta.ser Meta.WF MetaItems)
    (BadLeaf (cc 'm' 'e' 't' 'a') MetaBad) b k

/-- A movie header of a version other than 0 and 1. -/
def MvhdBad (b : Bytes) (k : ErrKind) : Prop :=
  ∃ (v : UInt8) (flags rest : Bytes), v ≠ 0 ∧ v ≠ 1 ∧ flags.length = 3 ∧ b = v :: flags ++ rest ∧ k = .unknownVersion v

/-- An `esds` atom of an unknown version, or whose first descriptor is not an elementary stream descriptor. -/
def EsdsBad (b : Bytes) (k : ErrKind) : Prop :=
  BadVersion b k ∨
  ∃ (flags : Bytes) (d : Desc) (rest : Bytes), flags.length = 3 ∧ d.tag ≠ 3 ∧ d.WF ∧ b = 0 :: flags ++ d.ser ++ rest ∧
    k = .descriptorNotFound 3

/-- An `mp4a` atom with a bad `esds`, or another atom in its place. -/
def Mp4aBad (b : Bytes) (k : ErrKind) : Prop :=
  ∃ (front : Bytes) (c : Box) (rest : Bytes), front.length = 28 ∧ c.Fits ∧ b = front ++ c.ser ++ rest ∧
    ((c.fc = cc 'e' 's' 'd' 's' ∧ EsdsBad c.body k) ∨ (c.fc ≠ cc 'e' 's' 'd' 's' ∧ k = .atomNotFound (cc 'e' 's' 'd' 's')))

def StsdBad (b : Bytes) (k : ErrKind) : Prop :=
  BadVersion b k ∨
  ∃ flags count b', flags.length = 3 ∧ count.length = 4 ∧ b = 0 :: flags ++ count ++ b' ∧
    FirstBad id (GoodLeaf (cc 'm' 'p' '4' 'a') Mp4aBody) (BadLeaf (cc 'm' 'p' '4' 'a') Mp4aBad) b' k

def StblBad (b : Bytes) (k : ErrKind) : Prop :=
  FirstBad id (GoodLeaf (cc 's' 't' 's' 'd') StsdBody) (BadLeaf (cc 's' 't' 's' 'd') StsdBad) b k
def MinfBad (b : Bytes) (k : ErrKind) : Prop :=
  FirstBad (Kid.box (cc 's' 't' 'b' 'l') Stbl.ser) (GoodKid (cc 's' 't' 'b' 'l') Stbl.ser Stbl.WF StblAudio)
    (BadLeaf (cc 's' 't' 'b' 'l') StblBad) b k
def MdiaBad (b : Bytes) (k : ErrKind) : Prop :=
  FirstBad (Kid.box (cc 'm' 'i' 'n' 'f') Minf.ser) (GoodKid (cc 'm' 'i' 'n' 'f') Minf.ser Minf.WF MinfAudio)
    (BadLeaf (cc 'm' 'i' 'n' 'f') MinfBad) b k
def TrakBad (b : Bytes) (k : ErrKind) : Prop :=
  FirstBad (Kid.box (cc 'm' 'd' 'i' 'a') Mdia.ser) (GoodKid (cc 'm' 'd' 'i' 'a') Mdia.ser Mdia.WF MdiaAudio)
    (BadLeaf (cc 'm' 'd' 'i' 'a') MdiaBad) b k

/-- A well-formed child of the movie whose content means something. -/
def GoodMoovKid (k : MoovKid) : Prop :=
  k.WF ∧ (∀ b, k.mvhd? = some b → ∃ g, MvhdBody b g) ∧ (∀ t, k.trak? = some t → ∃ g, TrakAudio t g) ∧
  (∀ u, k.udta? = some u → ∃ g, UdtaItems u g)

/-- A child of the movie with a defect. -/
def BadMoovKid (c : Box) (k : ErrKind) : Prop :=
  BadLeaf (cc 'm' 'v' 'h' 'd') MvhdBad c k ∨ BadLeaf (cc 't' 'r' 'a' 'k') TrakBad c k ∨
  BadLeaf (cc 'u' 'd' 't' 'a') UdtaBad c k

def MoovBad (b : Bytes) (k : ErrKind) : Prop := FirstBad MoovKid.box GoodMoovKid BadMoovKid b k

end Mp4.Spec
