import Verif.Model.Types
import Verif.Model.Data
/-
Specification of the file layout: atoms ("boxes"), the nested container atoms between the top level and
the leaves, and their serialisation. Written independently of the parser and the writer, from the ISO
base media file format (ISO/IEC 14496-12) and the iTunes metadata layout.
-/
namespace Mp4.Spec

/-- A 32 bit integer, most significant byte first. -/
def be32 (n : Nat) : Bytes :=
  [UInt8.ofNat (n / 2^24), UInt8.ofNat (n / 2^16), UInt8.ofNat (n / 2^8), UInt8.ofNat n]

/-- A 64 bit integer, most significant byte first. -/
def be64 (n : Nat) : Bytes := be32 (n / 2^32) ++ be32 n

/-- An atom: `ext` selects the 64 bit form of the size. -/
structure Box where
  ext : Bool
  fc : Fourcc
  body : Bytes
deriving DecidableEq, Repr

/-- The length of the head. -/
def Box.headLen (b : Box) : Nat := if b.ext then 16 else 8

/-- The bytes of the head: 32 bit size (or 1), identifier, 64 bit size. -/
def Box.head (b : Box) : Bytes :=
  if b.ext then be32 1 ++ b.fc.bytes ++ be64 (b.body.length + 16)
  else be32 (b.body.length + 8) ++ b.fc.bytes

/-- The bytes of an atom. -/
def Box.ser (b : Box) : Bytes := b.head ++ b.body

/-- The size fits its field. (64 bit sizes always fit: files are assumed to be shorter than 2^63
bytes.) -/
def Box.Fits (b : Box) : Prop := b.ext = false → b.body.length + 8 < 2^32

instance (b : Box) : Decidable b.Fits := by unfold Box.Fits; infer_instance

/-- The bytes of a list of children, each of which is a box. -/
def serL {κ : Type} (box : κ → Box) (ks : List κ) : Bytes := ks.flatMap fun k => (box k).ser

/-- A child of a container: the one kind of child that is interpreted there, or any other atom. -/
inductive Kid (α : Type) where
  | node (ext : Bool) (a : α)
  | raw (b : Box)
deriving DecidableEq, Repr

/-- The atom of a child, given the identifier and the content of the interpreted kind. -/
def Kid.box {α} (fc : Fourcc) (ser : α → Bytes) : Kid α → Box
  | .node ext a => ⟨ext, fc, ser a⟩
  | .raw b => b

/-- The interpreted content. -/
def Kid.sel {α} : Kid α → Option α
  | .node _ a => some a
  | .raw _ => none

/-- An atom of kind `fc` is not hidden in a raw child, and all sizes fit. -/
def Kid.WF {α} (fc : Fourcc) (ser : α → Bytes) (P : α → Prop) (k : Kid α) : Prop :=
  (k.box fc ser).Fits ∧
  match k with
  | .node _ a => P a
  | .raw b => b.fc ≠ fc

/-- The sample table: `stsd`, `stco`, `co64` and others. -/
abbrev Stbl := List Box
/-- Media information. -/
abbrev Minf := List (Kid Stbl)
/-- Media. -/
abbrev Mdia := List (Kid Minf)
/-- Track. -/
abbrev Trak := List (Kid Mdia)

def Stbl.ser (s : Stbl) : Bytes := serL id s
def Minf.ser (s : Minf) : Bytes := serL (Kid.box (cc 's' 't' 'b' 'l') Stbl.ser) s
def Mdia.ser (s : Mdia) : Bytes := serL (Kid.box (cc 'm' 'i' 'n' 'f') Minf.ser) s
def Trak.ser (s : Trak) : Bytes := serL (Kid.box (cc 'm' 'd' 'i' 'a') Mdia.ser) s

def Stbl.WF (s : Stbl) : Prop := ∀ b ∈ s, b.Fits
def Minf.WF (s : Minf) : Prop := ∀ k ∈ s, Kid.WF (cc 's' 't' 'b' 'l') Stbl.ser Stbl.WF k
def Mdia.WF (s : Mdia) : Prop := ∀ k ∈ s, Kid.WF (cc 'm' 'i' 'n' 'f') Minf.ser Minf.WF k
def Trak.WF (s : Trak) : Prop := ∀ k ∈ s, Kid.WF (cc 'm' 'd' 'i' 'a') Mdia.ser Mdia.WF k

/-- The metadata atom: version 0, three bytes of flags, `hdlr`, `ilst` and others. -/
structure Meta where
  flags : Bytes
  kids : List Box
deriving DecidableEq, Repr

def Meta.ser (m : Meta) : Bytes := 0 :: m.flags ++ serL id m.kids
def Meta.WF (m : Meta) : Prop := m.flags.length = 3 ∧ ∀ b ∈ m.kids, b.Fits

/-- User data. -/
abbrev Udta := List (Kid Meta)
def Udta.ser (s : Udta) : Bytes := serL (Kid.box (cc 'm' 'e' 't' 'a') Meta.ser) s
def Udta.WF (s : Udta) : Prop := ∀ k ∈ s, Kid.WF (cc 'm' 'e' 't' 'a') Meta.ser Meta.WF k

/-- A child of the movie atom. `mvhd` is a raw child. -/
inductive MoovKid where
  | trak (ext : Bool) (t : Trak)
  | udta (ext : Bool) (u : Udta)
  | raw (b : Box)
deriving DecidableEq, Repr

def MoovKid.box : MoovKid → Box
  | .trak ext t => ⟨ext, cc 't' 'r' 'a' 'k', t.ser⟩
  | .udta ext u => ⟨ext, cc 'u' 'd' 't' 'a', u.ser⟩
  | .raw b => b

def MoovKid.WF (k : MoovKid) : Prop :=
  k.box.Fits ∧
  match k with
  | .trak _ t => t.WF
  | .udta _ u => u.WF
  | .raw b => b.fc ≠ cc 't' 'r' 'a' 'k' ∧ b.fc ≠ cc 'u' 'd' 't' 'a'

/-- Movie. -/
abbrev Moov := List MoovKid
def Moov.ser (m : Moov) : Bytes := serL MoovKid.box m
def Moov.WF (m : Moov) : Prop := ∀ k ∈ m, MoovKid.WF k

/-- The UTF-8 bytes of a string. -/
def utf8 (s : Str) : Bytes := s.flatMap String.utf8EncodeChar

/-- A file: `ftyp`, other atoms, exactly one `moov`, other atoms. -/
structure File where
  ftypExt : Bool
  ftyp : Str
  pre : List Box
  moovExt : Bool
  moov : Moov
  post : List Box
deriving DecidableEq, Repr

def File.ftypBox (f : File) : Box := ⟨f.ftypExt, cc 'f' 't' 'y' 'p', utf8 f.ftyp⟩
def File.moovBox (f : File) : Box := ⟨f.moovExt, cc 'm' 'o' 'o' 'v', f.moov.ser⟩

def File.ser (f : File) : Bytes :=
  f.ftypBox.ser ++ serL id f.pre ++ f.moovBox.ser ++ serL id f.post

def File.WF (f : File) : Prop :=
  f.ftypBox.Fits ∧ f.moovBox.Fits ∧ f.moov.WF ∧
  (∀ b ∈ f.pre, b.Fits ∧ b.fc ≠ cc 'm' 'o' 'o' 'v') ∧
  (∀ b ∈ f.post, b.Fits ∧ b.fc ≠ cc 'm' 'o' 'o' 'v')

end Mp4.Spec
