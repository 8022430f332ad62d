import Verif.Model.Write
/-
The tag API (src/tag/).

Conventions: a method taking `&mut self` is a function returning the new tag (and the returned
value); an iterator is the list of what it yields. Iterators over mutable references are modelled by
the function the caller applies to each yielded element, indexed by its position.
-/
namespace Mp4

/-! ### Generic access (src/tag/mod.rs:314-1359) -/

/-- `iter().find(|a| ident == &a.ident)` -/
def findAtom (i : Ident) (l : List AtomData) : Option AtomData := l.find? fun a => i.matches a.ident

/-- `match iter_mut().find(|a| ident == a.ident) { Some(a) => f(a), None => .. }`: the list with `f`
applied to the first matching entry, or `none`. -/
def modFirst (i : Ident) (f : AtomData → AtomData) : List AtomData → Option (List AtomData)
  | [] => none
  | a :: l => if i.matches a.ident then some (f a :: l) else (modFirst i f l).map (a :: ·)

/-- `Tag::data_of` (src/tag/mod.rs:497-502). -/
def Tag.dataOf (t : Tag) (i : Ident) : List Data :=
  match findAtom i t.atoms with
  | some a => a.data
  | none => []

/-- `Tag::bytes_of` (src/tag/mod.rs:328-330). -/
def Tag.bytesOf (t : Tag) (i : Ident) : List Bytes := (t.dataOf i).filterMap Data.bytes?

/-- `Tag::strings_of` (src/tag/mod.rs:384-386). -/
def Tag.stringsOf (t : Tag) (i : Ident) : List Str := (t.dataOf i).filterMap Data.string?

/-- `Tag::images_of` (src/tag/mod.rs:441-443). -/
def Tag.imagesOf (t : Tag) (i : Ident) : List Img := (t.dataOf i).filterMap Data.image?

/-- `Tag::data_mut_of` (src/tag/mod.rs:518-523), `f k` is what the caller does with the `k`-th
yielded reference. -/
def Tag.dataMutOf (t : Tag) (i : Ident) (f : Nat → Data → Data) : Tag :=
  match modFirst i (fun a => { a with data := a.data.mapIdx f }) t.atoms with
  | some l => { t with atoms := l }
  | none => t

/-- `Tag::bytes_mut_of` (src/tag/mod.rs:345-350); `f` is indexed by the position among all values. -/
def Tag.bytesMutOf (t : Tag) (i : Ident) (f : Nat → Bytes → Bytes) : Tag :=
  t.dataMutOf i fun k => Data.modBytes (f k)

/-- `Tag::strings_mut_of` (src/tag/mod.rs:401-406). -/
def Tag.stringsMutOf (t : Tag) (i : Ident) (f : Nat → Str → Str) : Tag :=
  t.dataMutOf i fun k => Data.modString (f k)

/-- `Tag::images_mut_of` (src/tag/mod.rs:461-466). -/
def Tag.imagesMutOf (t : Tag) (i : Ident) (f : Nat → Bytes → Bytes) : Tag :=
  t.dataMutOf i fun k => Data.modImage (f k)

/-- The loop of `Tag::take_data_of` (src/tag/mod.rs:539-549). The first argument bounds the
iterations (the number of entries suffices). -/
def takeLoop (i : Ident) : Nat → List AtomData → Nat → List Data × List AtomData
  | 0, l, _ => ([], l)
  | f+1, l, k =>
    match l[k]? with
    | some a => if i.matches a.ident then (a.data, l.eraseIdx k) else takeLoop i f l (k + 1)
    | none => ([], l)

/-- `Tag::take_data_of` (src/tag/mod.rs:538-550). -/
def Tag.takeDataOf (t : Tag) (i : Ident) : List Data × Tag :=
  let r := takeLoop i (t.atoms.length + 1) t.atoms 0
  (r.1, { t with atoms := r.2 })

/-- `Tag::take_bytes_of` (src/tag/mod.rs:365-370). -/
def Tag.takeBytesOf (t : Tag) (i : Ident) : List Bytes × Tag :=
  let r := t.takeDataOf i
  (r.1.filterMap Data.bytes?, r.2)

/-- `Tag::take_strings_of` (src/tag/mod.rs:421-426). -/
def Tag.takeStringsOf (t : Tag) (i : Ident) : List Str × Tag :=
  let r := t.takeDataOf i
  (r.1.filterMap Data.string?, r.2)

/-- `Tag::take_images_of` (src/tag/mod.rs:481-483). -/
def Tag.takeImagesOf (t : Tag) (i : Ident) : List Img × Tag :=
  let r := t.takeDataOf i
  (r.1.filterMap Data.image?, r.2)

/-- `Tag::data` (src/tag/mod.rs:779-781). -/
def Tag.dataAll (t : Tag) : List (DataIdent × Data) :=
  t.atoms.flatMap fun a => a.data.map fun d => (a.ident, d)

/-- `Tag::bytes` (src/tag/mod.rs:571-573). -/
def Tag.bytesAll (t : Tag) : List (DataIdent × Bytes) :=
  t.dataAll.filterMap fun (i, d) => d.bytes?.map fun b => (i, b)

/-- `Tag::strings` (src/tag/mod.rs:640-642). -/
def Tag.stringsAll (t : Tag) : List (DataIdent × Str) :=
  t.dataAll.filterMap fun (i, d) => d.string?.map fun s => (i, s)

/-- `Tag::images` (src/tag/mod.rs:709-711). -/
def Tag.imagesAll (t : Tag) : List (DataIdent × Img) :=
  t.dataAll.filterMap fun (i, d) => d.image?.map fun s => (i, s)

/-- `Tag::data_mut` (src/tag/mod.rs:802-808); `f j k` acts on the `k`-th value of the `j`-th entry. -/
def Tag.dataMut (t : Tag) (f : Nat → Nat → Data → Data) : Tag :=
  { t with atoms := t.atoms.mapIdx fun j a => { a with data := a.data.mapIdx (f j) } }

/-- `Tag::bytes_mut` (src/tag/mod.rs:595-597). -/
def Tag.bytesMut (t : Tag) (f : Nat → Nat → Bytes → Bytes) : Tag :=
  t.dataMut fun j k => Data.modBytes (f j k)

/-- `Tag::strings_mut` (src/tag/mod.rs:664-666). -/
def Tag.stringsMut (t : Tag) (f : Nat → Nat → Str → Str) : Tag :=
  t.dataMut fun j k => Data.modString (f j k)

/-- `Tag::images_mut` (src/tag/mod.rs:733-735). -/
def Tag.imagesMut (t : Tag) (f : Nat → Nat → Bytes → Bytes) : Tag :=
  t.dataMut fun j k => Data.modImage (f j k)

/-- `Tag::take_data` (src/tag/mod.rs:827-833), consuming the tag. -/
def Tag.takeData (t : Tag) : List (DataIdent × Data) :=
  t.atoms.flatMap fun a => a.data.map fun d => (a.ident, d)

/-- `Tag::take_bytes` (src/tag/mod.rs:617-619). -/
def Tag.takeBytes (t : Tag) : List (DataIdent × Bytes) :=
  t.takeData.filterMap fun (i, d) => d.bytes?.map fun b => (i, b)

/-- `Tag::take_strings` (src/tag/mod.rs:686-688). -/
def Tag.takeStrings (t : Tag) : List (DataIdent × Str) :=
  t.takeData.filterMap fun (i, d) => d.string?.map fun s => (i, s)

/-- `Tag::take_images` (src/tag/mod.rs:755-757). -/
def Tag.takeImages (t : Tag) : List (DataIdent × Img) :=
  t.takeData.filterMap fun (i, d) => d.image?.map fun s => (i, s)

/-- `Tag::remove_data_of` (src/tag/mod.rs:936-938). -/
def Tag.removeDataOf (t : Tag) (i : Ident) : Tag :=
  { t with atoms := t.atoms.filter fun a => !i.matches a.ident }

/-- `Tag::retain_data_of` (src/tag/mod.rs:1052-1061). -/
def Tag.retainDataOf (t : Tag) (i : Ident) (p : Data → Bool) : Tag :=
  match t.atoms.findIdx? fun a => i.matches a.ident with
  | some k =>
    let l := t.atoms.modify k fun a => { a with data := a.data.filter p }
    match l[k]? with
    | some a => if a.data.isEmpty then { t with atoms := l.eraseIdx k } else { t with atoms := l }
    | none => t
  | none => t

/-- `Tag::remove_bytes_of` (src/tag/mod.rs:860-862). -/
def Tag.removeBytesOf (t : Tag) (i : Ident) : Tag := t.retainDataOf i fun d => !d.isBytes

/-- `Tag::remove_strings_of` (src/tag/mod.rs:889-891). -/
def Tag.removeStringsOf (t : Tag) (i : Ident) : Tag := t.retainDataOf i fun d => !d.isString

/-- `Tag::remove_images_of` (src/tag/mod.rs:918-920). -/
def Tag.removeImagesOf (t : Tag) (i : Ident) : Tag := t.retainDataOf i fun d => !d.isImage

/-- `x.map_or(true, p)` -/
def mapOrTrue {α} (x : Option α) (p : α → Bool) : Bool :=
  match x with
  | some a => p a
  | none => true

/-- `Tag::retain_bytes_of` (src/tag/mod.rs:965-967). -/
def Tag.retainBytesOf (t : Tag) (i : Ident) (p : Bytes → Bool) : Tag :=
  t.retainDataOf i fun d => mapOrTrue d.bytes? p

/-- `Tag::retain_strings_of` (src/tag/mod.rs:994-996). -/
def Tag.retainStringsOf (t : Tag) (i : Ident) (p : Str → Bool) : Tag :=
  t.retainDataOf i fun d => mapOrTrue d.string? p

/-- `Tag::retain_images_of` (src/tag/mod.rs:1023-1025). -/
def Tag.retainImagesOf (t : Tag) (i : Ident) (p : Img → Bool) : Tag :=
  t.retainDataOf i fun d => mapOrTrue d.image? p

/-- The inner loop of `Tag::retain_data` (src/tag/mod.rs:1188-1195). -/
def retainInner (p : Data → Bool) : Nat → List Data → Nat → List Data
  | 0, l, _ => l
  | f+1, l, j =>
    match l[j]? with
    | some d => if p d then retainInner p f l (j + 1) else retainInner p f (l.eraseIdx j) j
    | none => l

/-- The outer loop of `Tag::retain_data` (src/tag/mod.rs:1185-1202). -/
def retainOuter (p : DataIdent → Data → Bool) : Nat → List AtomData → Nat → List AtomData
  | 0, l, _ => l
  | f+1, l, i =>
    match l[i]? with
    | some a =>
      let d := retainInner (p a.ident) (a.data.length + 1) a.data 0
      if d.isEmpty then retainOuter p f (l.eraseIdx i) i
      else retainOuter p f (l.set i { a with data := d }) (i + 1)
    | none => l

/-- `Tag::retain_data` (src/tag/mod.rs:1184-1203). -/
def Tag.retainData (t : Tag) (p : DataIdent → Data → Bool) : Tag :=
  { t with atoms := retainOuter p (t.atoms.length + 1) t.atoms 0 }

/-- `Tag::retain_bytes` (src/tag/mod.rs:1091-1093). -/
def Tag.retainBytes (t : Tag) (p : DataIdent → Bytes → Bool) : Tag :=
  t.retainData fun i d => mapOrTrue d.bytes? (p i)

/-- `Tag::retain_strings` (src/tag/mod.rs:1123-1125). -/
def Tag.retainStrings (t : Tag) (p : DataIdent → Str → Bool) : Tag :=
  t.retainData fun i d => mapOrTrue d.string? (p i)

/-- `Tag::retain_images` (src/tag/mod.rs:1155-1157). -/
def Tag.retainImages (t : Tag) (p : DataIdent → Img → Bool) : Tag :=
  t.retainData fun i d => mapOrTrue d.image? (p i)

/-- `Tag::clear` (src/tag/mod.rs:1219-1221). -/
def Tag.clear (t : Tag) : Tag := { t with atoms := [] }

/-- `Tag::set_data` (src/tag/mod.rs:1236-1244). -/
def Tag.setData (t : Tag) (i : Ident) (d : Data) : Tag :=
  match modFirst i (fun a => { a with data := [d] }) t.atoms with
  | some l => { t with atoms := l }
  | none => { t with atoms := t.atoms ++ [⟨i.toData, [d]⟩] }

/-- `Tag::set_all_data` (src/tag/mod.rs:1267-1281). -/
def Tag.setAllData (t : Tag) (i : Ident) (ds : List Data) : Tag :=
  match modFirst i (fun a => { a with data := ds }) t.atoms with
  | some l => { t with atoms := l }
  | none => { t with atoms := t.atoms ++ [⟨i.toData, ds⟩] }

/-- `Tag::add_data` (src/tag/mod.rs:1301-1306). -/
def Tag.addData (t : Tag) (i : Ident) (d : Data) : Tag :=
  match modFirst i (fun a => { a with data := a.data ++ [d] }) t.atoms with
  | some l => { t with atoms := l }
  | none => { t with atoms := t.atoms ++ [⟨i.toData, [d]⟩] }

/-- `Tag::add_all_data` (src/tag/mod.rs:1329-1338). -/
def Tag.addAllData (t : Tag) (i : Ident) (ds : List Data) : Tag :=
  match modFirst i (fun a => { a with data := a.data ++ ds }) t.atoms with
  | some l => { t with atoms := l }
  | none => { t with atoms := t.atoms ++ [⟨i.toData, ds⟩] }

/-- `Tag::is_empty` (src/tag/mod.rs:1356-1358). -/
def Tag.isEmpty (t : Tag) : Bool := t.atoms.isEmpty

/-! ### Generated accessors (proc/src/lib.rs) -/

/-- `x()` of a single string value (proc/src/lib.rs:50-52). -/
def Tag.getString (t : Tag) (i : Ident) : Option Str := (t.stringsOf i).head?

/-- `take_x()` (proc/src/lib.rs:55-57, 122-124). -/
def Tag.takeString (t : Tag) (i : Ident) : Option Str × Tag :=
  let r := t.takeStringsOf i
  (r.1.head?, r.2)

/-- `set_x(s)` (proc/src/lib.rs:60-62, 133-135). -/
def Tag.setString (t : Tag) (i : Ident) (s : Str) : Tag := t.setData i (.utf8 s)

/-- `remove_x()`, `remove_xs()` of every generated accessor (proc/src/lib.rs:65-67, 149-151,
202-204, 246-248, 290-292). -/
def Tag.removeValue (t : Tag) (i : Ident) : Tag := t.removeDataOf i

/-- `xs()` of a multiple string value (proc/src/lib.rs:107-109). -/
def Tag.getStrings (t : Tag) (i : Ident) : List Str := t.stringsOf i

/-- `take_xs()` (proc/src/lib.rs:117-119). -/
def Tag.takeStringValues (t : Tag) (i : Ident) : List Str × Tag := t.takeStringsOf i

/-- `set_xs(l)` (proc/src/lib.rs:127-130). -/
def Tag.setStrings (t : Tag) (i : Ident) (l : List Str) : Tag := t.setAllData i (l.map .utf8)

/-- `add_xs(l)` (proc/src/lib.rs:138-141). -/
def Tag.addStrings (t : Tag) (i : Ident) (l : List Str) : Tag := t.addAllData i (l.map .utf8)

/-- `add_x(s)` (proc/src/lib.rs:144-146). -/
def Tag.addString (t : Tag) (i : Ident) (s : Str) : Tag := t.addData i (.utf8 s)

/-- `x()` of a flag (proc/src/lib.rs:188-194). -/
def Tag.getFlag (t : Tag) (i : Ident) : Bool :=
  match (t.bytesOf i).head? with
  | some v =>
    match v[0]? with
    | some b => b == 1
    | none => false
  | none => false

/-- `set_x()` of a flag (proc/src/lib.rs:197-199). -/
def Tag.setFlag (t : Tag) (i : Ident) : Tag := t.setData i (.beSigned [1])

/-- `x()` of a u16 or u32 value (`size` 2 or 4; proc/src/lib.rs:234-237, 278-281). -/
def Tag.getInt (t : Tag) (i : Ident) (size : Nat) : Option Nat :=
  match (t.bytesOf i).head? with
  | some v => beInt v 0 size
  | none => none

/-- `set_x(n)` of a u16 or u32 value (proc/src/lib.rs:240-243, 284-287). -/
def Tag.setInt (t : Tag) (i : Ident) (size n : Nat) : Tag := t.setData i (.beSigned (toBe size n))

/-- The constants of src/atom/ident.rs by name, among which the path `ident::{NAME}` built by the
macros (proc/src/lib.rs:21) is resolved. -/
def identConsts : List (String × Ident) := [
  ("FILETYPE", .fourcc FILETYPE),
  ("MEDIA_DATA", .fourcc MEDIA_DATA),
  ("MOVIE", .fourcc MOVIE),
  ("MOVIE_HEADER", .fourcc MOVIE_HEADER),
  ("TRACK", .fourcc TRACK),
  ("MEDIA", .fourcc MEDIA),
  ("MEDIA_INFORMATION", .fourcc MEDIA_INFORMATION),
  ("SAMPLE_TABLE", .fourcc SAMPLE_TABLE),
  ("SAMPLE_TABLE_CHUNK_OFFSET", .fourcc SAMPLE_TABLE_CHUNK_OFFSET),
  ("SAMPLE_TABLE_CHUNK_OFFSET_64", .fourcc SAMPLE_TABLE_CHUNK_OFFSET_64),
  ("SAMPLE_TABLE_SAMPLE_DESCRIPTION", .fourcc SAMPLE_TABLE_SAMPLE_DESCRIPTION),
  ("MP4_AUDIO", .fourcc MP4_AUDIO),
  ("ELEMENTARY_STREAM_DESCRIPTION", .fourcc ELEMENTARY_STREAM_DESCRIPTION),
  ("USER_DATA", .fourcc USER_DATA),
  ("METADATA", .fourcc METADATA),
  ("HANDLER_REFERENCE", .fourcc HANDLER_REFERENCE),
  ("ITEM_LIST", .fourcc ITEM_LIST),
  ("DATA", .fourcc DATA),
  ("MEAN", .fourcc MEAN),
  ("NAME", .fourcc NAME),
  ("FREE", .fourcc FREE),
  ("FREEFORM", .fourcc FREEFORM),
  ("ADVISORY_RATING", .fourcc ADVISORY_RATING),
  ("ALBUM", .fourcc ALBUM),
  ("ALBUM_ARTIST", .fourcc ALBUM_ARTIST),
  ("ARTIST", .fourcc ARTIST),
  ("ARTWORK", .fourcc ARTWORK),
  ("BPM", .fourcc BPM),
  ("COMMENT", .fourcc COMMENT),
  ("COMPILATION", .fourcc COMPILATION),
  ("COMPOSER", .fourcc COMPOSER),
  ("COPYRIGHT", .fourcc COPYRIGHT),
  ("CUSTOM_GENRE", .fourcc CUSTOM_GENRE),
  ("DISC_NUMBER", .fourcc DISC_NUMBER),
  ("ENCODER", .fourcc ENCODER),
  ("STANDARD_GENRE", .fourcc STANDARD_GENRE),
  ("TITLE", .fourcc TITLE),
  ("TRACK_NUMBER", .fourcc TRACK_NUMBER),
  ("YEAR", .fourcc YEAR),
  ("GROUPING", .fourcc GROUPING),
  ("MEDIA_TYPE", .fourcc MEDIA_TYPE),
  ("CATEGORY", .fourcc CATEGORY),
  ("KEYWORD", .fourcc KEYWORD),
  ("PODCAST", .fourcc PODCAST),
  ("PODCAST_EPISODE_GLOBAL_UNIQUE_ID", .fourcc PODCAST_EPISODE_GLOBAL_UNIQUE_ID),
  ("PODCAST_URL", .fourcc PODCAST_URL),
  ("DESCRIPTION", .fourcc DESCRIPTION),
  ("LYRICS", .fourcc LYRICS),
  ("TV_EPISODE", .fourcc TV_EPISODE),
  ("TV_EPISODE_NAME", .fourcc TV_EPISODE_NAME),
  ("TV_NETWORK_NAME", .fourcc TV_NETWORK_NAME),
  ("TV_SEASON", .fourcc TV_SEASON),
  ("TV_SHOW_NAME", .fourcc TV_SHOW_NAME),
  ("PURCHASE_DATE", .fourcc PURCHASE_DATE),
  ("GAPLESS_PLAYBACK", .fourcc GAPLESS_PLAYBACK),
  ("MOVEMENT", .fourcc MOVEMENT),
  ("MOVEMENT_COUNT", .fourcc MOVEMENT_COUNT),
  ("MOVEMENT_INDEX", .fourcc MOVEMENT_INDEX),
  ("WORK", .fourcc WORK),
  ("SHOW_MOVEMENT", .fourcc SHOW_MOVEMENT),
  ("ISRC", .freeform ISRC),
  ("LYRICIST", .freeform LYRICIST)]

/-- ASCII upper case of a character (`str::to_uppercase` on the macro arguments, which consist of
lower case ASCII letters and underscores). -/
def upperAscii (c : Char) : Char := if 'a' ≤ c ∧ c ≤ 'z' then Char.ofNat (c.toNat - 32) else c

/-- The identifier an accessor macro uses for its first argument (proc/src/lib.rs:21). -/
def macroIdent (name : String) : Option Ident :=
  identConsts.lookup (String.ofList (name.toList.map upperAscii))

/-- The invocations of `single_string_value_accessor!` (src/tag/mod.rs:129-140): value name and
documented identifier. -/
def singleStringAccessors : List (String × String) := [
  ("album", "©alb"),
  ("copyright", "cprt"),
  ("encoder", "©too"),
  ("lyrics", "©lyr"),
  ("movement", "©mvn"),
  ("title", "©nam"),
  ("tv_episode_name", "tven"),
  ("tv_network_name", "tvnn"),
  ("tv_show_name", "tvsh"),
  ("work", "©wrk"),
  ("year", "©day"),
  ("isrc", "----:com.apple.iTunes:ISRC")]

/-- The invocations of `multiple_string_values_accessor!` (src/tag/mod.rs:143-152). -/
def multiStringAccessors : List (String × String) := [
  ("album_artist", "aART"),
  ("artist", "©ART"),
  ("category", "catg"),
  ("comment", "©cmt"),
  ("composer", "©wrt"),
  ("custom_genre", "©gen"),
  ("description", "desc"),
  ("grouping", "©grp"),
  ("keyword", "keyw"),
  ("lyricist", "----:com.apple.iTunes:LYRICIST")]

/-- The invocations of `flag_value_accessor!` (src/tag/mod.rs:155-157). -/
def flagAccessors : List (String × String) := [
  ("compilation", "cpil"),
  ("gapless_playback", "pgap"),
  ("show_movement", "shwm")]

/-- The invocations of `u16_value_accessor!` (src/tag/mod.rs:160-162). -/
def u16Accessors : List (String × String) := [
  ("bpm", "tmpo"),
  ("movement_count", "©mvc"),
  ("movement_index", "©mvi")]

/-- The invocations of `u32_value_accessor!` (src/tag/mod.rs:164-165). -/
def u32Accessors : List (String × String) := [
  ("tv_episode", "tves"),
  ("tv_season", "tvsn")]

/-- `Display for Fourcc` (src/atom/ident.rs:208-212): every byte as a Latin-1 character. -/
def Fourcc.display (f : Fourcc) : Str := f.bytes.map fun b => Char.ofNat b.toNat

/-- `Display for DataIdent` (src/atom/ident.rs:285-292). -/
def DataIdent.display : DataIdent → Str
  | .fourcc f => f.display
  | .freeform mean name => "----:".toList ++ mean ++ ":".toList ++ name

/-! ### Artwork (src/tag/mod.rs:168-213) -/

/-- `Tag::artworks` (src/tag/mod.rs:171-173). -/
def Tag.artworks (t : Tag) : List Img := t.imagesOf (.fourcc ARTWORK)
/-- `Tag::artwork` (src/tag/mod.rs:176-178). -/
def Tag.artwork (t : Tag) : Option Img := (t.imagesOf (.fourcc ARTWORK)).head?
/-- `Tag::take_artworks` (src/tag/mod.rs:181-183). -/
def Tag.takeArtworks (t : Tag) : List Img × Tag := t.takeImagesOf (.fourcc ARTWORK)
/-- `Tag::take_artwork` (src/tag/mod.rs:186-188). -/
def Tag.takeArtwork (t : Tag) : Option Img × Tag :=
  let r := t.takeImagesOf (.fourcc ARTWORK)
  (r.1.head?, r.2)
/-- `Tag::set_artwork` (src/tag/mod.rs:191-193). -/
def Tag.setArtwork (t : Tag) (i : Img) : Tag := t.setData (.fourcc ARTWORK) (Data.ofImg i)
/-- `Tag::set_artworks` (src/tag/mod.rs:196-198). -/
def Tag.setArtworks (t : Tag) (l : List Img) : Tag := t.setAllData (.fourcc ARTWORK) (l.map Data.ofImg)
/-- `Tag::add_artwork` (src/tag/mod.rs:201-203). -/
def Tag.addArtwork (t : Tag) (i : Img) : Tag := t.addData (.fourcc ARTWORK) (Data.ofImg i)
/-- `Tag::add_artworks` (src/tag/mod.rs:206-208). -/
def Tag.addArtworks (t : Tag) (l : List Img) : Tag := t.addAllData (.fourcc ARTWORK) (l.map Data.ofImg)
/-- `Tag::remove_artworks` (src/tag/mod.rs:211-213). -/
def Tag.removeArtworks (t : Tag) : Tag := t.removeDataOf (.fourcc ARTWORK)

/-! ### Media type and advisory rating (src/tag/mod.rs:252-312) -/

/-- `Tag::media_type` (src/tag/mod.rs:255-263). -/
def Tag.mediaType (t : Tag) : Option MediaType :=
  match (t.bytesOf (.fourcc MEDIA_TYPE)).head? with
  | some (b :: _) => MediaType.ofCode b
  | _ => none
/-- `Tag::set_media_type` (src/tag/mod.rs:266-268). -/
def Tag.setMediaType (t : Tag) (m : MediaType) : Tag :=
  t.setData (.fourcc MEDIA_TYPE) (.reserved [m.code])
/-- `Tag::remove_media_type` (src/tag/mod.rs:271-273). -/
def Tag.removeMediaType (t : Tag) : Tag := t.removeDataOf (.fourcc MEDIA_TYPE)
/-- `Tag::advisory_rating` (src/tag/mod.rs:286-294). -/
def Tag.advisoryRating (t : Tag) : Option AdvisoryRating :=
  match (t.bytesOf (.fourcc ADVISORY_RATING)).head? with
  | some (b :: _) => some (AdvisoryRating.ofCode b)
  | _ => none
/-- `Tag::set_advisory_rating` (src/tag/mod.rs:297-299). -/
def Tag.setAdvisoryRating (t : Tag) (r : AdvisoryRating) : Tag :=
  t.setData (.fourcc ADVISORY_RATING) (.reserved [r.code])
/-- `Tag::remove_advisory_rating` (src/tag/mod.rs:302-304). -/
def Tag.removeAdvisoryRating (t : Tag) : Tag := t.removeDataOf (.fourcc ADVISORY_RATING)

/-! ### Track and disc (src/tag/tuple.rs)

The track and disc methods are the same code for `TRACK_NUMBER` and `DISC_NUMBER`; they are modelled
once with the identifier as parameter and instantiated below. -/

/-- `.and_then(|n| if n == 0 { None } else { Some(n) })` -/
def nonZero : Option Nat → Option Nat
  | some n => if n = 0 then none else some n
  | none => none

/-- `number` (src/tag/tuple.rs:197-199). -/
def tupNumber (v : Bytes) : Option Nat := nonZero (beInt v 2 2)
/-- `total` (src/tag/tuple.rs:201-203). -/
def tupTotal (v : Bytes) : Option Nat := nonZero (beInt v 4 2)
/-- `set_number` (src/tag/tuple.rs:205-207). -/
def tupSetNumber (v : Bytes) (n : Nat) : Bytes := setBeInt v 2 n 2
/-- `set_total` (src/tag/tuple.rs:209-211). -/
def tupSetTotal (v : Bytes) (n : Nat) : Bytes := setBeInt v 4 n 2
/-- `new` (src/tag/tuple.rs:213-217). -/
def tupNew (number total : Nat) : Bytes := [0, 0] ++ toBe 2 number ++ toBe 2 total

/-- The first value of kind bytes, mutated in place. -/
def modFirstBytes (f : Bytes → Bytes) : List Data → Option (List Data)
  | [] => none
  | d :: l =>
    match d.bytes? with
    | some _ => some (d.modBytes f :: l)
    | none => (modFirstBytes f l).map (d :: ·)

/-- `match self.bytes_mut_of(ident).next() { Some(v) => f(v), None => .. }`: the tag after `f`
mutated the first byte value, or `none` if there is no byte value. -/
def Tag.withFirstBytes (t : Tag) (i : Ident) (f : Bytes → Bytes) : Option Tag :=
  match findAtom i t.atoms with
  | none => none
  | some a =>
    match modFirstBytes f a.data with
    | none => none
    | some ds =>
      (modFirst i (fun a => { a with data := ds }) t.atoms).map fun l => { t with atoms := l }

/-- `track`, `disc` (src/tag/tuple.rs:11-18, 107-114). -/
def Tag.getPair (t : Tag) (i : Ident) : Option Nat × Option Nat :=
  match (t.bytesOf i).head? with
  | some v => (tupNumber v, tupTotal v)
  | none => (none, none)
/-- `track_number`, `disc_number` (src/tag/tuple.rs:21-24, 117-120). -/
def Tag.getNumber (t : Tag) (i : Ident) : Option Nat := (t.bytesOf i).head?.bind tupNumber
/-- `total_tracks`, `total_discs` (src/tag/tuple.rs:27-30, 123-126). -/
def Tag.getTotal (t : Tag) (i : Ident) : Option Nat := (t.bytesOf i).head?.bind tupTotal
/-- `set_new_track`, `set_new_disc` (src/tag/tuple.rs:32-35, 128-131). -/
def Tag.setNewPair (t : Tag) (i : Ident) (n m : Nat) : Tag := t.setData i (.reserved (tupNew n m))
/-- `set_track`, `set_disc` (src/tag/tuple.rs:38-47, 134-143). -/
def Tag.setPair (t : Tag) (i : Ident) (n m : Nat) : Tag :=
  match t.withFirstBytes i (fun v => tupSetNumber (tupSetTotal v m) n) with
  | some t => t
  | none => t.setNewPair i n m
/-- `set_track_number`, `set_disc_number` (src/tag/tuple.rs:50-56, 146-152). -/
def Tag.setNumber (t : Tag) (i : Ident) (n : Nat) : Tag :=
  match t.withFirstBytes i (fun v => tupSetNumber v n) with
  | some t => t
  | none => t.setNewPair i n 0
/-- `set_total_tracks`, `set_total_discs` (src/tag/tuple.rs:59-65, 155-161). -/
def Tag.setTotal (t : Tag) (i : Ident) (m : Nat) : Tag :=
  match t.withFirstBytes i (fun v => tupSetTotal v m) with
  | some t => t
  | none => t.setNewPair i 0 m
/-- `remove_track`, `remove_disc` (src/tag/tuple.rs:68-70, 164-166). -/
def Tag.removePair (t : Tag) (i : Ident) : Tag := t.removeDataOf i
/-- `remove_track_number`, `remove_disc_number` (src/tag/tuple.rs:73-79, 169-175). -/
def Tag.removeNumber (t : Tag) (i : Ident) : Tag :=
  match (t.bytesOf i).head? with
  | some v =>
    if tupTotal v ≠ some 0 then (t.withFirstBytes i (fun v => tupSetNumber v 0)).getD t
    else t.removePair i
  | none => t.removePair i
/-- `remove_total_tracks`, `remove_total_discs` (src/tag/tuple.rs:82-88, 178-184). -/
def Tag.removeTotal (t : Tag) (i : Ident) : Tag :=
  match (t.bytesOf i).head? with
  | some v =>
    if tupNumber v ≠ some 0 then (t.withFirstBytes i (fun v => tupSetTotal v 0)).getD t
    else t.removePair i
  | none => t.removePair i

/-- The identifier of the track methods (src/tag/tuple.rs:12 etc.). -/
def trackI : Ident := .fourcc TRACK_NUMBER
/-- The identifier of the disc methods (src/tag/tuple.rs:108 etc.). -/
def discI : Ident := .fourcc DISC_NUMBER

/-! ### Genres (src/tag/genre.rs) -/

/-- src/tag/genre.rs:7-88 -/
def STANDARD_GENRES : List String := [
  "Blues",
  "Classic rock",
  "Country",
  "Dance",
  "Disco",
  "Funk",
  "Grunge",
  "Hip,-Hop",
  "Jazz",
  "Metal",
  "New Age",
  "Oldies",
  "Other",
  "Pop",
  "Rhythm and Blues",
  "Rap",
  "Reggae",
  "Rock",
  "Techno",
  "Industrial",
  "Alternative",
  "Ska",
  "Death metal",
  "Pranks",
  "Soundtrack",
  "Euro-Techno",
  "Ambient",
  "Trip-Hop",
  "Vocal",
  "Jazz & Funk",
  "Fusion",
  "Trance",
  "Classical",
  "Instrumental",
  "Acid",
  "House",
  "Game",
  "Sound clip",
  "Gospel",
  "Noise",
  "Alternative Rock",
  "Bass",
  "Soul",
  "Punk",
  "Space",
  "Meditative",
  "Instrumental Pop",
  "Instrumental Rock",
  "Ethnic",
  "Gothic",
  "Darkwave",
  "Techno-Industrial",
  "Electronic",
  "Pop-Folk",
  "Eurodance",
  "Dream",
  "Southern Rock",
  "Comedy",
  "Cult",
  "Gangsta",
  "Top 41",
  "Christian Rap",
  "Pop/Funk",
  "Jungle",
  "Native US",
  "Cabaret",
  "New Wave",
  "Psychedelic",
  "Rave",
  "Show tunes",
  "Trailer",
  "Lo,-Fi",
  "Tribal",
  "Acid Punk",
  "Acid Jazz",
  "Polka",
  "Retro",
  "Musical",
  "Rock ’n’ Roll",
  "Hard Rock"]

/-- `stanard_genre` (src/tag/genre.rs:215-222). -/
def stdGenreName (code : Nat) : Option Str :=
  if code > 0 ∧ code ≤ STANDARD_GENRES.length then (STANDARD_GENRES[code - 1]?).map String.toList
  else none

/-- The closure of `Tag::standard_genres` (src/tag/genre.rs:94-100). -/
def stdGenreCode (v : Bytes) : Option Nat :=
  if v.length < 2 then none else some (beNat [v.getD 0 0, v.getD 1 0])

/-- `Tag::standard_genres` (src/tag/genre.rs:93-101). -/
def Tag.standardGenres (t : Tag) : List Nat := (t.bytesOf (.fourcc STANDARD_GENRE)).filterMap stdGenreCode
/-- `Tag::standard_genre` (src/tag/genre.rs:104-106). -/
def Tag.standardGenre (t : Tag) : Option Nat := t.standardGenres.head?
/-- `Tag::set_standard_genre` (src/tag/genre.rs:109-112). -/
def Tag.setStandardGenre (t : Tag) (c : Nat) : Tag :=
  t.setData (.fourcc STANDARD_GENRE) (.reserved (toBe 2 c))
/-- `Tag::set_standard_genres` (src/tag/genre.rs:115-118). -/
def Tag.setStandardGenres (t : Tag) (cs : List Nat) : Tag :=
  t.setAllData (.fourcc STANDARD_GENRE) (cs.map fun c => .reserved (toBe 2 c))
/-- `Tag::add_standard_genre` (src/tag/genre.rs:121-124). -/
def Tag.addStandardGenre (t : Tag) (c : Nat) : Tag :=
  t.addData (.fourcc STANDARD_GENRE) (.reserved (toBe 2 c))
/-- `Tag::add_standard_genres` (src/tag/genre.rs:127-130). -/
def Tag.addStandardGenres (t : Tag) (cs : List Nat) : Tag :=
  t.addAllData (.fourcc STANDARD_GENRE) (cs.map fun c => .reserved (toBe 2 c))
/-- `Tag::remove_standard_genres` (src/tag/genre.rs:133-135). -/
def Tag.removeStandardGenres (t : Tag) : Tag := t.removeDataOf (.fourcc STANDARD_GENRE)

/-- The identifier of the generated `custom_genre` accessors (src/tag/mod.rs:148). -/
def customGenreI : Ident := .fourcc CUSTOM_GENRE

/-- `Tag::genres` (src/tag/genre.rs:144-147). -/
def Tag.genres (t : Tag) : List Str := t.standardGenres.filterMap stdGenreName ++ t.getStrings customGenreI
/-- `Tag::genre` (src/tag/genre.rs:150-156). -/
def Tag.genre (t : Tag) : Option Str :=
  match t.standardGenre.bind stdGenreName with
  | some g => some g
  | none => t.getString customGenreI
/-- `Tag::take_genres` (src/tag/genre.rs:160-167). -/
def Tag.takeGenres (t : Tag) : List Str × Tag :=
  let std := t.standardGenres.filterMap stdGenreName
  let r := t.takeStringValues customGenreI
  (std ++ r.1, r.2)
/-- `Tag::take_genre` (src/tag/genre.rs:170-176). -/
def Tag.takeGenre (t : Tag) : Option Str × Tag :=
  match t.standardGenre.bind stdGenreName with
  | some g => (some g, t)
  | none => t.takeString customGenreI
/-- `Tag::set_genre` (src/tag/genre.rs:179-182). -/
def Tag.setGenre (t : Tag) (s : Str) : Tag := (t.setString customGenreI s).removeStandardGenres
/-- `Tag::set_genres` (src/tag/genre.rs:185-188). -/
def Tag.setGenres (t : Tag) (l : List Str) : Tag := (t.setStrings customGenreI l).removeStandardGenres
/-- `Tag::add_genre` (src/tag/genre.rs:191-193). -/
def Tag.addGenre (t : Tag) (s : Str) : Tag := t.addString customGenreI s
/-- `Tag::remove_genres` (src/tag/genre.rs:196-199). -/
def Tag.removeGenres (t : Tag) : Tag := (t.removeStandardGenres).removeValue customGenreI

/-! ### Read-only information (src/tag/readonly.rs) -/

/-- `Tag::audio_info` (src/tag/readonly.rs:9-11). -/
def Tag.audioInfo (t : Tag) : AudioInfo := t.info
/-- `Tag::duration` (src/tag/readonly.rs:14-16). -/
def Tag.duration (t : Tag) : Option Nat := t.info.duration
/-- `Tag::channel_config` (src/tag/readonly.rs:43-45). -/
def Tag.channelConfig (t : Tag) : Option ChannelConfig := t.info.channelConfig
/-- `Tag::sample_rate` (src/tag/readonly.rs:55-57). -/
def Tag.sampleRate (t : Tag) : Option SampleRate := t.info.sampleRate
/-- `Tag::avg_bitrate` (src/tag/readonly.rs:67-69). -/
def Tag.avgBitrate (t : Tag) : Option Nat := t.info.avgBitrate
/-- `Tag::max_bitrate` (src/tag/readonly.rs:79-81). -/
def Tag.maxBitrate (t : Tag) : Option Nat := t.info.maxBitrate
/-- `Tag::filetype` (src/tag/readonly.rs:94-96). -/
def Tag.filetype (t : Tag) : Str := t.ftyp

end Mp4
