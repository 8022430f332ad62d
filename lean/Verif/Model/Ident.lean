import Verif.Model.Basic
/-
Identifiers (src/atom/ident.rs).
-/
namespace Mp4

/-! ### Identifier constants -/

/-- src/atom/ident.rs:5 -/
def FILETYPE : Fourcc := cc 'f' 't' 'y' 'p'
/-- src/atom/ident.rs:7 -/
def MEDIA_DATA : Fourcc := cc 'm' 'd' 'a' 't'
/-- src/atom/ident.rs:9 -/
def MOVIE : Fourcc := cc 'm' 'o' 'o' 'v'
/-- src/atom/ident.rs:11 -/
def MOVIE_HEADER : Fourcc := cc 'm' 'v' 'h' 'd'
/-- src/atom/ident.rs:13 -/
def TRACK : Fourcc := cc 't' 'r' 'a' 'k'
/-- src/atom/ident.rs:15 -/
def MEDIA : Fourcc := cc 'm' 'd' 'i' 'a'
/-- src/atom/ident.rs:17 -/
def MEDIA_INFORMATION : Fourcc := cc 'm' 'i' 'n' 'f'
/-- src/atom/ident.rs:19 -/
def SAMPLE_TABLE : Fourcc := cc 's' 't' 'b' 'l'
/-- src/atom/ident.rs:21 -/
def SAMPLE_TABLE_CHUNK_OFFSET : Fourcc := cc 's' 't' 'c' 'o'
/-- src/atom/ident.rs:23 -/
def SAMPLE_TABLE_CHUNK_OFFSET_64 : Fourcc := cc 'c' 'o' '6' '4'
/-- src/atom/ident.rs:25 -/
def SAMPLE_TABLE_SAMPLE_DESCRIPTION : Fourcc := cc 's' 't' 's' 'd'
/-- src/atom/ident.rs:27 -/
def MP4_AUDIO : Fourcc := cc 'm' 'p' '4' 'a'
/-- src/atom/ident.rs:29 -/
def ELEMENTARY_STREAM_DESCRIPTION : Fourcc := cc 'e' 's' 'd' 's'
/-- src/atom/ident.rs:31 -/
def USER_DATA : Fourcc := cc 'u' 'd' 't' 'a'
/-- src/atom/ident.rs:33 -/
def METADATA : Fourcc := cc 'm' 'e' 't' 'a'
/-- src/atom/ident.rs:35 -/
def HANDLER_REFERENCE : Fourcc := cc 'h' 'd' 'l' 'r'
/-- src/atom/ident.rs:37 -/
def ITEM_LIST : Fourcc := cc 'i' 'l' 's' 't'
/-- src/atom/ident.rs:39 -/
def DATA : Fourcc := cc 'd' 'a' 't' 'a'
/-- src/atom/ident.rs:41 -/
def MEAN : Fourcc := cc 'm' 'e' 'a' 'n'
/-- src/atom/ident.rs:43 -/
def NAME : Fourcc := cc 'n' 'a' 'm' 'e'
/-- src/atom/ident.rs:45 -/
def FREE : Fourcc := cc 'f' 'r' 'e' 'e'
/-- src/atom/ident.rs:48 -/
def FREEFORM : Fourcc := cc '-' '-' '-' '-'
/-- src/atom/ident.rs:52 -/
def ADVISORY_RATING : Fourcc := cc 'r' 't' 'n' 'g'
/-- src/atom/ident.rs:54 -/
def ALBUM : Fourcc := cc '©' 'a' 'l' 'b'
/-- src/atom/ident.rs:56 -/
def ALBUM_ARTIST : Fourcc := cc 'a' 'A' 'R' 'T'
/-- src/atom/ident.rs:58 -/
def ARTIST : Fourcc := cc '©' 'A' 'R' 'T'
/-- src/atom/ident.rs:60 -/
def ARTWORK : Fourcc := cc 'c' 'o' 'v' 'r'
/-- src/atom/ident.rs:62 -/
def BPM : Fourcc := cc 't' 'm' 'p' 'o'
/-- src/atom/ident.rs:64 -/
def COMMENT : Fourcc := cc '©' 'c' 'm' 't'
/-- src/atom/ident.rs:66 -/
def COMPILATION : Fourcc := cc 'c' 'p' 'i' 'l'
/-- src/atom/ident.rs:68 -/
def COMPOSER : Fourcc := cc '©' 'w' 'r' 't'
/-- src/atom/ident.rs:70 -/
def COPYRIGHT : Fourcc := cc 'c' 'p' 'r' 't'
/-- src/atom/ident.rs:72 -/
def CUSTOM_GENRE : Fourcc := cc '©' 'g' 'e' 'n'
/-- src/atom/ident.rs:74 -/
def DISC_NUMBER : Fourcc := cc 'd' 'i' 's' 'k'
/-- src/atom/ident.rs:76 -/
def ENCODER : Fourcc := cc '©' 't' 'o' 'o'
/-- src/atom/ident.rs:78 -/
def STANDARD_GENRE : Fourcc := cc 'g' 'n' 'r' 'e'
/-- src/atom/ident.rs:80 -/
def TITLE : Fourcc := cc '©' 'n' 'a' 'm'
/-- src/atom/ident.rs:82 -/
def TRACK_NUMBER : Fourcc := cc 't' 'r' 'k' 'n'
/-- src/atom/ident.rs:84 -/
def YEAR : Fourcc := cc '©' 'd' 'a' 'y'
/-- src/atom/ident.rs:88 -/
def GROUPING : Fourcc := cc '©' 'g' 'r' 'p'
/-- src/atom/ident.rs:90 -/
def MEDIA_TYPE : Fourcc := cc 's' 't' 'i' 'k'
/-- src/atom/ident.rs:94 -/
def CATEGORY : Fourcc := cc 'c' 'a' 't' 'g'
/-- src/atom/ident.rs:96 -/
def KEYWORD : Fourcc := cc 'k' 'e' 'y' 'w'
/-- src/atom/ident.rs:98 -/
def PODCAST : Fourcc := cc 'p' 'c' 's' 't'
/-- src/atom/ident.rs:100 -/
def PODCAST_EPISODE_GLOBAL_UNIQUE_ID : Fourcc := cc 'e' 'g' 'i' 'd'
/-- src/atom/ident.rs:102 -/
def PODCAST_URL : Fourcc := cc 'p' 'u' 'r' 'l'
/-- src/atom/ident.rs:106 -/
def DESCRIPTION : Fourcc := cc 'd' 'e' 's' 'c'
/-- src/atom/ident.rs:108 -/
def LYRICS : Fourcc := cc '©' 'l' 'y' 'r'
/-- src/atom/ident.rs:112 -/
def TV_EPISODE : Fourcc := cc 't' 'v' 'e' 's'
/-- src/atom/ident.rs:114 -/
def TV_EPISODE_NAME : Fourcc := cc 't' 'v' 'e' 'n'
/-- src/atom/ident.rs:116 -/
def TV_NETWORK_NAME : Fourcc := cc 't' 'v' 'n' 'n'
/-- src/atom/ident.rs:118 -/
def TV_SEASON : Fourcc := cc 't' 'v' 's' 'n'
/-- src/atom/ident.rs:120 -/
def TV_SHOW_NAME : Fourcc := cc 't' 'v' 's' 'h'
/-- src/atom/ident.rs:124 -/
def PURCHASE_DATE : Fourcc := cc 'p' 'u' 'r' 'd'
/-- src/atom/ident.rs:128 -/
def GAPLESS_PLAYBACK : Fourcc := cc 'p' 'g' 'a' 'p'
/-- src/atom/ident.rs:132 -/
def MOVEMENT : Fourcc := cc '©' 'm' 'v' 'n'
/-- src/atom/ident.rs:134 -/
def MOVEMENT_COUNT : Fourcc := cc '©' 'm' 'v' 'c'
/-- src/atom/ident.rs:136 -/
def MOVEMENT_INDEX : Fourcc := cc '©' 'm' 'v' 'i'
/-- src/atom/ident.rs:138 -/
def WORK : Fourcc := cc '©' 'w' 'r' 'k'
/-- src/atom/ident.rs:140 -/
def SHOW_MOVEMENT : Fourcc := cc 's' 'h' 'w' 'm'

/-- src/atom/ident.rs:214-221, an identifier of a freeform atom. -/
structure FreeformIdent where
  mean : Str
  name : Str
deriving DecidableEq, Repr

/-- src/atom/ident.rs:144 -/
def APPLE_ITUNES_MEAN : Str := "com.apple.iTunes".toList
/-- src/atom/ident.rs:147 -/
def ISRC : FreeformIdent := ⟨APPLE_ITUNES_MEAN, "ISRC".toList⟩
/-- src/atom/ident.rs:149 -/
def LYRICIST : FreeformIdent := ⟨APPLE_ITUNES_MEAN, "LYRICIST".toList⟩

/-- src/atom/ident.rs:255-267, the identifier under which a tag stores values. -/
inductive DataIdent where
  | fourcc (f : Fourcc)
  | freeform (mean name : Str)
deriving DecidableEq, Repr

/-- An argument of type `impl Ident` / `impl Ident + Into<DataIdent>`: the three implementations
of the trait (src/atom/ident.rs:192-200, 232-240, 269-283). -/
inductive Ident where
  | fourcc (f : Fourcc)
  | freeform (i : FreeformIdent)
  | data (i : DataIdent)
deriving DecidableEq, Repr

/-- `ident == &atom.ident`: `PartialEq<DataIdent>` for `Fourcc` (src/atom/ident.rs:183-190), for
`FreeformIdent` (src/atom/ident.rs:223-230) and the derived one for `DataIdent`
(src/atom/ident.rs:256). -/
def Ident.matches : Ident → DataIdent → Bool
  | .fourcc f, .fourcc g => f == g
  | .fourcc _, .freeform _ _ => false
  | .freeform _, .fourcc _ => false
  | .freeform i, .freeform mean name => i.mean == mean && i.name == name
  | .data i, j => i == j

/-- `ident.into()`: src/atom/ident.rs:294-310 and the identity. -/
def Ident.toData : Ident → DataIdent
  | .fourcc f => .fourcc f
  | .freeform i => .freeform i.mean i.name
  | .data i => i

/-- `Ident::fourcc` (src/atom/ident.rs:193-195, 233-235, 270-275). -/
def Ident.fourcc? : Ident → Option Fourcc
  | .fourcc f => some f
  | .freeform _ => none
  | .data (.fourcc f) => some f
  | .data (.freeform _ _) => none

/-- `Ident::freeform` (src/atom/ident.rs:197-199, 237-239, 277-282). -/
def Ident.freeform? : Ident → Option FreeformIdent
  | .fourcc _ => none
  | .freeform i => some i
  | .data (.fourcc _) => none
  | .data (.freeform m n) => some ⟨m, n⟩

/-- `idents_match` (src/atom/ident.rs:161-163). -/
def identsMatch (a b : Ident) : Bool := a.fourcc? == b.fourcc? && a.freeform? == b.freeform?

end Mp4
