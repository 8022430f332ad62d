import Verif.Spec.Content
/-
Specification of the atoms that represent items and of the hierarchy around them.
-/
namespace Mp4.Spec

/-- An atom in its shortest form: 64 bit size exactly if it does not fit 32 bits. -/
def mkBox (fc : Fourcc) (body : Bytes) : Box := ⟨decide (2^32 ≤ body.length + 8), fc, body⟩

/-- Well-known type codes. -/
def typeCode : Data → Nat
  | .reserved _ => 0
  | .utf8 _ => 1
  | .utf16 _ => 2
  | .jpeg _ => 13
  | .png _ => 14
  | .beSigned _ => 21
  | .bmp _ => 27

/-- The stored bytes of a value. -/
def payload : Data → Bytes
  | .utf8 s => utf8 s
  | .utf16 s => utf16be s
  | .reserved b | .jpeg b | .png b | .beSigned b | .bmp b => b

/-- The `data` atom of a value, locale 0. -/
def dataPart (d : Data) : Part := .data false (typeCode d) [0, 0, 0, 0] (payload d) d

/-- The item of an entry of the tag. -/
def entryOf (a : AtomData) : Entry :=
  match a.ident with
  | .fourcc f => .item false f (a.data.map dataPart)
  | .freeform mean name =>
    .item false (cc '-' '-' '-' '-')
      (.mean false [0, 0, 0] mean :: .name false [0, 0, 0] name :: a.data.map dataPart)

def ilstBox (atoms : List AtomData) : Box := mkBox (cc 'i' 'l' 's' 't') (serL Entry.box (atoms.map entryOf))

/-- The handler of an iTunes metadata atom: version and flags, predefined, `mdir`, `appl`, reserved, an
empty name. -/
def hdlrBody : Bytes :=
  List.replicate 8 0 ++ (cc 'm' 'd' 'i' 'r').bytes ++ (cc 'a' 'p' 'p' 'l').bytes ++ List.replicate 9 0

def hdlrBox : Box := mkBox (cc 'h' 'd' 'l' 'r') hdlrBody

/-- A new `meta`, `udta`, `moov` around an item list. -/
def newMeta (atoms : List AtomData) : Meta := ⟨[0, 0, 0], [hdlrBox, ilstBox atoms]⟩

def metaKid (m : Meta) : Kid Meta := .node (decide (2^32 ≤ m.ser.length + 8)) m
def udtaKid (u : Udta) : MoovKid := .udta (decide (2^32 ≤ u.ser.length + 8)) u
def newUdta (atoms : List AtomData) : Udta := [metaKid (newMeta atoms)]
def newMoov (atoms : List AtomData) : Moov := [udtaKid (newUdta atoms)]

/-- The file a tag is dumped to. -/
def dumpFile (atoms : List AtomData) : File where
  ftypExt := false
  ftyp := "M4A \x00\x00\x02\x00isomiso2".toList
  pre := []
  moovExt := decide (2^32 ≤ (newMoov atoms).ser.length + 8)
  moov := newMoov atoms
  post := []

/-- Not a UTF-16 value, except for the empty one. -/
def noUtf16Text : Data → Prop
  | .utf16 s => s = []
  | _ => True

/-- An entry without non-empty UTF-16 values whose item is smaller than 4 GiB. -/
def Storable (a : AtomData) : Prop := (∀ d ∈ a.data, noUtf16Text d) ∧ (entryOf a).box.Fits

/-- An entry that has a value and is not called `free`. -/
def Visible (a : AtomData) : Prop := a.data ≠ [] ∧ a.ident ≠ .fourcc (cc 'f' 'r' 'e' 'e')

end Mp4.Spec
