import Verif.Model.Ops
/-
Which entries a call of the tag API may depend on and change. Written from the documentation of the methods.
-/
namespace Mp4.Spec
open Mp4

/-- Is the call about the entry of `j`: may it read or change it? -/
def about (j : DataIdent) : TagOp → Bool
  | .set i _ | .setAll i _ | .add i _ | .addAll i _ | .remove i | .removeBytes i | .removeStrings i | .removeImages i
  | .retainOf i _ | .retainBytesOf i _ | .retainStringsOf i _ | .retainImagesOf i _ | .take i
  | .dataMutOf i _ | .bytesMutOf i _ | .stringsMutOf i _ | .imagesMutOf i _
  | .setString i _ | .setStrings i _ | .addString i _ | .addStrings i _ | .setFlag i | .setInt i _ _
  | .setPair i _ _ | .setNumber i _ | .setTotal i _ | .removeNumber i | .removeTotal i => j = i.toData
  | .retain _ | .retainBytes _ | .retainStrings _ | .retainImages _ | .clear
  | .dataMut _ | .bytesMut _ | .stringsMut _ | .imagesMut _ => true
  | .setArtwork _ | .setArtworks _ | .addArtwork _ | .addArtworks _ => j = .fourcc (cc 'c' 'o' 'v' 'r')
  | .setMediaType _ => j = .fourcc (cc 's' 't' 'i' 'k')
  | .setAdvisoryRating _ => j = .fourcc (cc 'r' 't' 'n' 'g')
  | .setStandardGenre _ | .setStandardGenres _ | .addStandardGenre _ | .addStandardGenres _ => j = .fourcc (cc 'g' 'n' 'r' 'e')
  | .setGenre _ | .setGenres _ | .removeGenres => j = .fourcc (cc 'g' 'n' 'r' 'e') ∨ j = .fourcc (cc '©' 'g' 'e' 'n')
  | .takeGenres | .takeGenre => j = .fourcc (cc '©' 'g' 'e' 'n')

/-- Does the call treat every entry by itself? The views over all values that can be changed also tell the place of an entry, and
`take_genre` takes a custom genre only if there is no standard genre. -/
def separate : TagOp → Bool
  | .dataMut _ | .bytesMut _ | .stringsMut _ | .imagesMut _ | .takeGenre => false
  | _ => true

/-- Does the call only change the values of entries, or create entries? -/
def keeps : TagOp → Bool
  | .set _ _ | .setAll _ _ | .add _ _ | .addAll _ _ | .dataMutOf _ _ | .bytesMutOf _ _ | .stringsMutOf _ _ | .imagesMutOf _ _
  | .setString _ _ | .setStrings _ _ | .addString _ _ | .addStrings _ _ | .setFlag _ | .setInt _ _ _
  | .setPair _ _ _ | .setNumber _ _ | .setTotal _ _ | .setArtwork _ | .setArtworks _ | .addArtwork _ | .addArtworks _
  | .setMediaType _ | .setAdvisoryRating _
  | .setStandardGenre _ | .setStandardGenres _ | .addStandardGenre _ | .addStandardGenres _ => true
  | _ => false

/-- Two programs make the same calls about every entry, in the same order. -/
def SameCalls (p q : List TagOp) : Prop := ∀ j, p.filter (about j) = q.filter (about j)

end Mp4.Spec
