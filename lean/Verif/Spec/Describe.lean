import Verif.Model.Display
import Verif.Spec.Layout
import Verif.Spec.Build
import Verif.Spec.Written
/-
What the description of an error says: a catalogue of the errors of reading and writing, with their kind, the atom they
occur in (as the path of the identifiers from the outermost atom on) and their text.
-/
namespace Mp4.Spec
open Mp4

/-- The text of an error in the atom at the end of the path: the identifiers of the path, then what went wrong. -/
def inAtoms (verb : Str) (path : List Fourcc) (text : Str) : Str :=
  match path with
  | [] => text
  | f :: path => "Error ".toList ++ verb ++ " ".toList ++ f.display ++ ": ".toList ++ inAtoms verb path text

/-- The text of an error while reading. -/
def whileParsing (path : List Fourcc) (text : Str) : Str := inAtoms "parsing".toList path text

/-- The text of an error while writing. -/
def whileWriting (path : List Fourcc) (text : Str) : Str := inAtoms "writing".toList path text

/-! ### Atoms -/

def moovPath : List Fourcc := [cc 'm' 'o' 'o' 'v']
def mvhdPath : List Fourcc := moovPath ++ [cc 'm' 'v' 'h' 'd']
def trakPath : List Fourcc := moovPath ++ [cc 't' 'r' 'a' 'k']
def mdiaPath : List Fourcc := trakPath ++ [cc 'm' 'd' 'i' 'a']
def minfPath : List Fourcc := mdiaPath ++ [cc 'm' 'i' 'n' 'f']
def stblPath : List Fourcc := minfPath ++ [cc 's' 't' 'b' 'l']
def stsdPath : List Fourcc := stblPath ++ [cc 's' 't' 's' 'd']
def mp4aPath : List Fourcc := stsdPath ++ [cc 'm' 'p' '4' 'a']
def udtaPath : List Fourcc := moovPath ++ [cc 'u' 'd' 't' 'a']
def metaPath : List Fourcc := udtaPath ++ [cc 'm' 'e' 't' 'a']
def ilstPath : List Fourcc := metaPath ++ [cc 'i' 'l' 's' 't']

/-- The places in which heads of atoms are read while reading a tag. -/
def readHeadPaths : List (List Fourcc) :=
  [[], moovPath, trakPath, mdiaPath, minfPath, stblPath, stsdPath, mp4aPath, udtaPath, metaPath, ilstPath]

/-- The places in which versions and flags are read while reading a tag. -/
def readFullPaths : List (List Fourcc) := [mvhdPath, stsdPath, mp4aPath, metaPath, ilstPath]

/-- The text for a head with a length that is too small. -/
def shortText (f : Fourcc) (n : Nat) : Str :=
  "Read length of '".toList ++ f.display ++ "' which is less than 8 bytes: ".toList ++ decimal n

/-- The text for an item without values. -/
def noDataText (f : Fourcc) : Str :=
  "Error constructing atom data '".toList ++ f.display ++ "', missing data atom".toList

/-- The type codes of values. -/
def knownTypes : List Nat := [0, 1, 2, 13, 14, 21, 27]

/-- The errors of `parse_head`. -/
inductive HeadFault : ErrKind → Str → Prop
  | length : HeadFault .io "Error reading atom length".toList
  | ident : HeadFault .io "Error reading atom identifier".toList
  | extLength : HeadFault .io "Error reading extended atom length".toList
  | short (f : Fourcc) (n : Nat) (hn : n < 8) (h1 : n ≠ 1) : HeadFault .parsing (shortText f n)

/-- The errors of `parse_full_head`. -/
inductive FullFault : ErrKind → Str → Prop
  | version : FullFault .io "Error reading version of full atom head".toList
  | flags : FullFault .io "Error reading flags of full atom head".toList

/-- The errors of reading a tag: path of the atom, kind and text. -/
inductive ReadFault : List Fourcc → ErrKind → Str → Prop
  | noTag : ReadFault [] .noTag "No filetype atom found.".toList
  | noMovie : ReadFault [] (.atomNotFound (cc 'm' 'o' 'o' 'v')) "Missing necessary data, no movie (moov) atom found".toList
  | head {p k t} (hp : p ∈ readHeadPaths) (h : HeadFault k t) : ReadFault p k t
  | full {p k t} (hp : p ∈ readFullPaths) (h : FullFault k t) : ReadFault p k t
  | io {p} (hp : p = mvhdPath ∨ p ∈ readHeadPaths) : ReadFault p .io []
  | mvhd (v : UInt8) (h0 : v ≠ 0) (h1 : v ≠ 1) :
      ReadFault mvhdPath (.unknownVersion v) ("Error unknown movie header (mvhd) version ".toList ++ decimal v.toNat)
  | stsd (v : UInt8) (h0 : v ≠ 0) :
      ReadFault stsdPath (.unknownVersion v) "Unknown sample table sample description (stsd) version".toList
  | esds (v : UInt8) (h0 : v ≠ 0) : ReadFault mp4aPath (.unknownVersion v) "Unknown MPEG-4 audio (mp4a) version".toList
  | noEsds : ReadFault mp4aPath (.atomNotFound (cc 'e' 's' 'd' 's')) "Missing esds atom".toList
  | noDesc : ReadFault mp4aPath (.descriptorNotFound 3) "Missing elementary stream descriptor".toList
  | metaVersion (v : UInt8) (h0 : v ≠ 0) : ReadFault metaPath (.unknownVersion v) "Unknown metadata (meta) version".toList
  | item (v : UInt8) (h0 : v ≠ 0) : ReadFault ilstPath (.unknownVersion v) "Error reading data atom (data)".toList
  | dataType (n : Nat) (hn : n < 2^24) (hk : n ∉ knownTypes) :
      ReadFault ilstPath (.unknownDataType n) "Unknown datatype code".toList
  | noData (f : Fourcc) (hf : f ≠ cc 'f' 'r' 'e' 'e') :
      ReadFault ilstPath (.atomNotFound (cc 'd' 'a' 't' 'a')) (noDataText f)
  | utf8 {p} (hp : p = [] ∨ p = ilstPath) : ReadFault p .utf8StringDecoding "Data is not valid utf-8.".toList
  | utf16 : ReadFault ilstPath .utf16StringDecoding "Data is not valid utf-16.".toList

/-- There is an atom with this identifier in the file: a length field followed by the identifier. -/
def Named (F : Bytes) (f : Fourcc) : Prop := ∃ q n, n < 2^32 ∧ (F.drop q).take 8 = be32 n ++ f.bytes

/-- What the error is about is in the file. -/
def Evidence (F : Bytes) (k : ErrKind) (t : Str) : Prop :=
  match k with
  | .parsing => ∃ f n q, t = shortText f n ∧ (F.drop q).take 8 = be32 n ++ f.bytes
  | .atomNotFound d => d = cc 'd' 'a' 't' 'a' → ∃ f, t = noDataText f ∧ Named F f
  | .unknownVersion v => ∃ fl, fl.length = 3 ∧ ∃ q, (F.drop q).take 4 = v :: fl
  | .unknownDataType n => ∃ q, (F.drop q).take 4 = be32 n
  | _ => True

/-- The description of an error of reading the file: the atoms it names are in the file, and so is what it is about. -/
def Explains (F : Bytes) (k : ErrKind) (d : Str) : Prop :=
  ∃ path text, ReadFault path k text ∧ d = whileParsing path text ∧ (∀ f ∈ path, Named F f) ∧ Evidence F k text

/-! ### Writing -/

def stcoPath : List Fourcc := stblPath ++ [cc 's' 't' 'c' 'o']
def co64Path : List Fourcc := stblPath ++ [cc 'c' 'o' '6' '4']
def hdlrPath : List Fourcc := metaPath ++ [cc 'h' 'd' 'l' 'r']
def mdatPath : List Fourcc := [cc 'm' 'd' 'a' 't']

/-- The places in which heads of atoms are read while the atoms to be changed are searched. -/
def findHeadPaths : List (List Fourcc) :=
  [[], moovPath, trakPath, mdiaPath, minfPath, stblPath, udtaPath, metaPath]

/-- The atoms of which only the position is searched. -/
def findLeafPaths : List (List Fourcc) := [stcoPath, co64Path, hdlrPath, ilstPath, mdatPath]

/-- The errors of the search for the atoms to be changed: path of the atom, kind and text. -/
inductive FindFault : List Fourcc → ErrKind → Str → Prop
  | noTag : FindFault [] .noTag "No filetype atom found.".toList
  | noMovie : FindFault [] (.atomNotFound (cc 'm' 'o' 'o' 'v')) "Missing necessary data, no movie (moov) atom found".toList
  | head {p k t} (hp : p ∈ findHeadPaths) (h : HeadFault k t) : FindFault p k t
  | full {k t} (h : FullFault k t) : FindFault metaPath k t
  | io {p} (hp : p ∈ findHeadPaths ∨ p ∈ findLeafPaths) : FindFault p .io []
  | metaVersion (v : UInt8) (h0 : v ≠ 0) : FindFault metaPath (.unknownVersion v) "Unknown metadata (meta) version".toList
  | utf8 : FindFault [] .utf8StringDecoding "Data is not valid utf-8.".toList

/-- The errors of reading a chunk offset table. -/
inductive TableFault : Fourcc → ErrKind → Str → Prop
  | full {f k t} (hf : f = cc 's' 't' 'c' 'o' ∨ f = cc 'c' 'o' '6' '4') (h : FullFault k t) : TableFault f k t
  | io {f} (hf : f = cc 's' 't' 'c' 'o' ∨ f = cc 'c' 'o' '6' '4') : TableFault f .io []
  | stcoSize : TableFault (cc 's' 't' 'c' 'o') .parsing
      "Sample table chunk offset (stco) offset table size doesn't match atom length".toList
  | co64Size : TableFault (cc 'c' 'o' '6' '4') .parsing
      "Sample table chunk offset 64 (co64) offset table size doesn't match atom length".toList
  | stcoVersion (v : UInt8) (h0 : v ≠ 0) : TableFault (cc 's' 't' 'c' 'o') (.unknownVersion v)
      "Unknown sample table chunk offset (stco) version".toList
  | co64Version (v : UInt8) (h0 : v ≠ 0) : TableFault (cc 'c' 'o' '6' '4') (.unknownVersion v)
      "Unknown 64bit sample table chunk offset (co64) version".toList

/-- The new item list, alone or in a new `meta` or `udta`. -/
def newItemPaths : List (List Fourcc) :=
  [[cc 'i' 'l' 's' 't'], [cc 'm' 'e' 't' 'a', cc 'i' 'l' 's' 't'], [cc 'u' 'd' 't' 'a', cc 'm' 'e' 't' 'a', cc 'i' 'l' 's' 't']]

/-- What is written anew to a file: the item list, and whatever is missing around it. -/
def File.newItemPath (f : File) : List Fourcc :=
  match f.moov.lastUdta with
  | none => [cc 'u' 'd' 't' 'a', cc 'm' 'e' 't' 'a', cc 'i' 'l' 's' 't']
  | some u =>
    match u.lastMeta with
    | none => [cc 'm' 'e' 't' 'a', cc 'i' 'l' 's' 't']
    | some _ => [cc 'i' 'l' 's' 't']

/-- The description of an error of writing to the file. -/
inductive SaveExplains (F : Bytes) (k : ErrKind) (d : Str) : Prop
  | search (path : List Fourcc) (text : Str) (h : FindFault path k text) (hd : d = whileParsing path text)
      (hn : ∀ f ∈ path, Named F f) (he : Evidence F k text)
  | table (f : Fourcc) (text : Str) (h : TableFault f k text) (hd : d = whileParsing [f] text) (hn : Named F f)
  | io (hk : k = .io) (hd : d = [])
  | write (path : List Fourcc) (hp : path ∈ newItemPaths) (hk : k = .io) (hd : d = whileWriting path [])

/-! ### Dumping -/

/-- The parts of the dumped file, each with the path of the innermost atom it belongs to whose writing is reported. -/
def dumpParts (atoms : List AtomData) : List (List Fourcc × Bytes) :=
  let ftyp := (dumpFile atoms).ftypBox
  let moov := (dumpFile atoms).moovBox
  let udta := mkBox (cc 'u' 'd' 't' 'a') (newUdta atoms).ser
  let meta_ := mkBox (cc 'm' 'e' 't' 'a') (newMeta atoms).ser
  [([], ftyp.ser), (moovPath, moov.head), (udtaPath, udta.head), (metaPath, meta_.head ++ [0, 0, 0, 0]), (hdlrPath, hdlrBox.ser),
    (ilstPath, (ilstBox atoms).ser)]

/-- The bytes of some parts, each with its owner. -/
def owned {α β : Type} (parts : List (α × List β)) : List (α × β) := parts.flatMap fun p => p.2.map fun b => (p.1, b)

/-! ### The printed text -/

/-- The documented names of the kinds of errors (src/error.rs:10-39). -/
def kindName : ErrKind → String
  | .atomNotFound _ => "AtomNotFound"
  | .descriptorNotFound _ => "DescriptorNotFound"
  | .io => "Io"
  | .noTag => "NoTag"
  | .parsing => "Parsing"
  | .unknownChannelConfig _ => "UnknownChannelConfig"
  | .unknownDataType _ => "UnknownDataType"
  | .unknownMediaType _ => "UnknownMediaType"
  | .unknownVersion _ => "UnknownVersion"
  | .utf8StringDecoding => "Utf8StringDecoding"
  | .utf16StringDecoding => "Utf16StringDecoding"
  | .unwritableData => "UnwritableData"

end Mp4.Spec
