import Verif.Spec.TagMap
import Verif.Model.Ops
/-
What every call of the tag API means for the ordered map.
-/
namespace Mp4.Spec
open Mp4

namespace OMap

/-- Is there a value of kind "bytes" under `i`? -/
def hasBytes (m : OMap) (i : DataIdent) : Bool := (m.vals i).any Data.isBytes

/-- The code of the first value under `gnre` that holds one (two or more bytes), if any. -/
def firstGenreCode (m : OMap) : Option Nat :=
  ((m.vals (.fourcc STANDARD_GENRE)).filterMap fun d =>
    match d with
    | .reserved (a :: b :: _) => some (a.toNat * 256 + b.toNat)
    | .beSigned (a :: b :: _) => some (a.toNat * 256 + b.toNat)
    | _ => none).head?

/-- The values of other kinds are kept. -/
def others {α} (k : Data → Option α) (p : α → Bool) (d : Data) : Bool :=
  match k d with
  | some a => p a
  | none => true

/-- The effect of a call on the ordered map. -/
def apply (m : OMap) : TagOp → OMap
  | .set i d => m.put i.toData [d]
  | .setAll i ds => m.put i.toData ds
  | .add i d => m.append i.toData [d]
  | .addAll i ds => m.append i.toData ds
  | .remove i => m.del i.toData
  | .removeBytes i => m.keepOf i.toData fun d => d.bytes?.isNone
  | .removeStrings i => m.keepOf i.toData fun d => d.string?.isNone
  | .removeImages i => m.keepOf i.toData fun d => d.image?.isNone
  | .retainOf i p => m.keepOf i.toData p
  | .retainBytesOf i p => m.keepOf i.toData (others Data.bytes? p)
  | .retainStringsOf i p => m.keepOf i.toData (others Data.string? p)
  | .retainImagesOf i p => m.keepOf i.toData (others Data.image? p)
  | .retain p => m.keep p
  | .retainBytes p => m.keep fun i => others Data.bytes? (p i)
  | .retainStrings p => m.keep fun i => others Data.string? (p i)
  | .retainImages p => m.keep fun i => others Data.image? (p i)
  | .clear => empty
  | .take i => m.del i.toData
  | .dataMutOf i f => m.modify i.toData fun l => l.mapIdx f
  | .bytesMutOf i f => m.modify i.toData fun l => l.mapIdx fun k => Data.modBytes (f k)
  | .stringsMutOf i f => m.modify i.toData fun l => l.mapIdx fun k => Data.modString (f k)
  | .imagesMutOf i f => m.modify i.toData fun l => l.mapIdx fun k => Data.modImage (f k)
  | .dataMut f => m.modifyAll fun j l => l.mapIdx (f j)
  | .bytesMut f => m.modifyAll fun j l => l.mapIdx fun k => Data.modBytes (f j k)
  | .stringsMut f => m.modifyAll fun j l => l.mapIdx fun k => Data.modString (f j k)
  | .imagesMut f => m.modifyAll fun j l => l.mapIdx fun k => Data.modImage (f j k)
  | .setString i s => m.put i.toData [.utf8 s]
  | .setStrings i l => m.put i.toData (l.map .utf8)
  | .addString i s => m.append i.toData [.utf8 s]
  | .addStrings i l => m.append i.toData (l.map .utf8)
  | .setFlag i => m.put i.toData [.beSigned [1]]
  | .setInt i size n => m.put i.toData [.beSigned (toBe size n)]
  | .setArtwork i => m.put (.fourcc ARTWORK) [.ofImg i]
  | .setArtworks l => m.put (.fourcc ARTWORK) (l.map .ofImg)
  | .addArtwork i => m.append (.fourcc ARTWORK) [.ofImg i]
  | .addArtworks l => m.append (.fourcc ARTWORK) (l.map .ofImg)
  | .setMediaType x => m.put (.fourcc MEDIA_TYPE) [.reserved [x.code]]
  | .setAdvisoryRating r => m.put (.fourcc ADVISORY_RATING) [.reserved [r.code]]
  | .setPair i n k =>
    m.firstBytes i.toData (fun v => tupSetNumber (tupSetTotal v k) n) (.reserved (tupNew n k))
  | .setNumber i n => m.firstBytes i.toData (fun v => tupSetNumber v n) (.reserved (tupNew n 0))
  | .setTotal i k => m.firstBytes i.toData (fun v => tupSetTotal v k) (.reserved (tupNew 0 k))
  | .removeNumber i =>
    if m.hasBytes i.toData then m.firstBytes i.toData (fun v => tupSetNumber v 0) (.reserved [])
    else m.del i.toData
  | .removeTotal i =>
    if m.hasBytes i.toData then m.firstBytes i.toData (fun v => tupSetTotal v 0) (.reserved [])
    else m.del i.toData
  | .setStandardGenre c => m.put (.fourcc STANDARD_GENRE) [.reserved (toBe 2 c)]
  | .setStandardGenres cs => m.put (.fourcc STANDARD_GENRE) (cs.map fun c => .reserved (toBe 2 c))
  | .addStandardGenre c => m.append (.fourcc STANDARD_GENRE) [.reserved (toBe 2 c)]
  | .addStandardGenres cs =>
    m.append (.fourcc STANDARD_GENRE) (cs.map fun c => .reserved (toBe 2 c))
  | .setGenre s => (m.put (.fourcc CUSTOM_GENRE) [.utf8 s]).del (.fourcc STANDARD_GENRE)
  | .setGenres l => (m.put (.fourcc CUSTOM_GENRE) (l.map .utf8)).del (.fourcc STANDARD_GENRE)
  | .removeGenres => (m.del (.fourcc STANDARD_GENRE)).del (.fourcc CUSTOM_GENRE)
  | .takeGenres => m.del (.fourcc CUSTOM_GENRE)
  | .takeGenre =>
    match m.firstGenreCode with
    | some c => if 1 ≤ c ∧ c ≤ 80 then m else m.del (.fourcc CUSTOM_GENRE)
    | none => m.del (.fourcc CUSTOM_GENRE)

end OMap
end Mp4.Spec
