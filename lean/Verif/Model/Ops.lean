import Verif.Model.Tag
/-
Histories of calls to the mutating part of the tag API.
-/
namespace Mp4

/-- One call of a mutating `Tag` method. The generated accessors are parameterised by the identifier
they use; `i` ranges over all identifiers, so the histories below include those of the real API. The
`take_*_of` variants differ only in what they return, they share `take`. -/
inductive TagOp where
  /-- `set_data` (src/tag/mod.rs:1236) -/
  | set (i : Ident) (d : Data)
  /-- `set_all_data` (src/tag/mod.rs:1267) -/
  | setAll (i : Ident) (ds : List Data)
  /-- `add_data` (src/tag/mod.rs:1301) -/
  | add (i : Ident) (d : Data)
  /-- `add_all_data` (src/tag/mod.rs:1329) -/
  | addAll (i : Ident) (ds : List Data)
  /-- `remove_data_of` (src/tag/mod.rs:936) -/
  | remove (i : Ident)
  /-- `remove_bytes_of` (src/tag/mod.rs:860) -/
  | removeBytes (i : Ident)
  /-- `remove_strings_of` (src/tag/mod.rs:889) -/
  | removeStrings (i : Ident)
  /-- `remove_images_of` (src/tag/mod.rs:918) -/
  | removeImages (i : Ident)
  /-- `retain_data_of` (src/tag/mod.rs:1052) -/
  | retainOf (i : Ident) (p : Data → Bool)
  /-- `retain_bytes_of` (src/tag/mod.rs:965) -/
  | retainBytesOf (i : Ident) (p : Bytes → Bool)
  /-- `retain_strings_of` (src/tag/mod.rs:994) -/
  | retainStringsOf (i : Ident) (p : Str → Bool)
  /-- `retain_images_of` (src/tag/mod.rs:1023) -/
  | retainImagesOf (i : Ident) (p : Img → Bool)
  /-- `retain_data` (src/tag/mod.rs:1184) -/
  | retain (p : DataIdent → Data → Bool)
  /-- `retain_bytes` (src/tag/mod.rs:1091) -/
  | retainBytes (p : DataIdent → Bytes → Bool)
  /-- `retain_strings` (src/tag/mod.rs:1123) -/
  | retainStrings (p : DataIdent → Str → Bool)
  /-- `retain_images` (src/tag/mod.rs:1155) -/
  | retainImages (p : DataIdent → Img → Bool)
  /-- `clear` (src/tag/mod.rs:1219) -/
  | clear
  /-- `take_data_of`, `take_bytes_of`, `take_strings_of`, `take_images_of` (src/tag/mod.rs:538, 365,
  421, 481) and the generated `take_*` accessors -/
  | take (i : Ident)
  /-- `data_mut_of` (src/tag/mod.rs:518) -/
  | dataMutOf (i : Ident) (f : Nat → Data → Data)
  /-- `bytes_mut_of` (src/tag/mod.rs:345) -/
  | bytesMutOf (i : Ident) (f : Nat → Bytes → Bytes)
  /-- `strings_mut_of` (src/tag/mod.rs:401) -/
  | stringsMutOf (i : Ident) (f : Nat → Str → Str)
  /-- `images_mut_of` (src/tag/mod.rs:461) -/
  | imagesMutOf (i : Ident) (f : Nat → Bytes → Bytes)
  /-- `data_mut` (src/tag/mod.rs:802) -/
  | dataMut (f : Nat → Nat → Data → Data)
  /-- `bytes_mut` (src/tag/mod.rs:595) -/
  | bytesMut (f : Nat → Nat → Bytes → Bytes)
  /-- `strings_mut` (src/tag/mod.rs:664) -/
  | stringsMut (f : Nat → Nat → Str → Str)
  /-- `images_mut` (src/tag/mod.rs:733) -/
  | imagesMut (f : Nat → Nat → Bytes → Bytes)
  /-- generated `set_x` of a string (proc/src/lib.rs:60, 133) -/
  | setString (i : Ident) (s : Str)
  /-- generated `set_xs` (proc/src/lib.rs:127) -/
  | setStrings (i : Ident) (l : List Str)
  /-- generated `add_x` (proc/src/lib.rs:144) -/
  | addString (i : Ident) (s : Str)
  /-- generated `add_xs` (proc/src/lib.rs:138) -/
  | addStrings (i : Ident) (l : List Str)
  /-- generated `set_x` of a flag (proc/src/lib.rs:197) -/
  | setFlag (i : Ident)
  /-- generated `set_x` of an integer (proc/src/lib.rs:240, 284) -/
  | setInt (i : Ident) (size n : Nat)
  /-- `set_artwork` (src/tag/mod.rs:191) -/
  | setArtwork (i : Img)
  /-- `set_artworks` (src/tag/mod.rs:196) -/
  | setArtworks (l : List Img)
  /-- `add_artwork` (src/tag/mod.rs:201) -/
  | addArtwork (i : Img)
  /-- `add_artworks` (src/tag/mod.rs:206) -/
  | addArtworks (l : List Img)
  /-- `set_media_type` (src/tag/mod.rs:266) -/
  | setMediaType (m : MediaType)
  /-- `set_advisory_rating` (src/tag/mod.rs:297) -/
  | setAdvisoryRating (r : AdvisoryRating)
  /-- `set_track`, `set_disc` (src/tag/tuple.rs:38, 134) -/
  | setPair (i : Ident) (n m : Nat)
  /-- `set_track_number`, `set_disc_number` (src/tag/tuple.rs:50, 146) -/
  | setNumber (i : Ident) (n : Nat)
  /-- `set_total_tracks`, `set_total_discs` (src/tag/tuple.rs:59, 155) -/
  | setTotal (i : Ident) (m : Nat)
  /-- `remove_track_number`, `remove_disc_number` (src/tag/tuple.rs:73, 169) -/
  | removeNumber (i : Ident)
  /-- `remove_total_tracks`, `remove_total_discs` (src/tag/tuple.rs:82, 178) -/
  | removeTotal (i : Ident)
  /-- `set_standard_genre` (src/tag/genre.rs:109) -/
  | setStandardGenre (c : Nat)
  /-- `set_standard_genres` (src/tag/genre.rs:115) -/
  | setStandardGenres (cs : List Nat)
  /-- `add_standard_genre` (src/tag/genre.rs:121) -/
  | addStandardGenre (c : Nat)
  /-- `add_standard_genres` (src/tag/genre.rs:127) -/
  | addStandardGenres (cs : List Nat)
  /-- `set_genre` (src/tag/genre.rs:179) -/
  | setGenre (s : Str)
  /-- `set_genres` (src/tag/genre.rs:185) -/
  | setGenres (l : List Str)
  /-- `remove_genres` (src/tag/genre.rs:196) -/
  | removeGenres
  /-- `take_genres` (src/tag/genre.rs:160) -/
  | takeGenres
  /-- `take_genre` (src/tag/genre.rs:170) -/
  | takeGenre

/-- The effect of a call on the tag. -/
def TagOp.run : TagOp → Tag → Tag
  | .set i d, t => t.setData i d
  | .setAll i ds, t => t.setAllData i ds
  | .add i d, t => t.addData i d
  | .addAll i ds, t => t.addAllData i ds
  | .remove i, t => t.removeDataOf i
  | .removeBytes i, t => t.removeBytesOf i
  | .removeStrings i, t => t.removeStringsOf i
  | .removeImages i, t => t.removeImagesOf i
  | .retainOf i p, t => t.retainDataOf i p
  | .retainBytesOf i p, t => t.retainBytesOf i p
  | .retainStringsOf i p, t => t.retainStringsOf i p
  | .retainImagesOf i p, t => t.retainImagesOf i p
  | .retain p, t => t.retainData p
  | .retainBytes p, t => t.retainBytes p
  | .retainStrings p, t => t.retainStrings p
  | .retainImages p, t => t.retainImages p
  | .clear, t => t.clear
  | .take i, t => (t.takeDataOf i).2
  | .dataMutOf i f, t => t.dataMutOf i f
  | .bytesMutOf i f, t => t.bytesMutOf i f
  | .stringsMutOf i f, t => t.stringsMutOf i f
  | .imagesMutOf i f, t => t.imagesMutOf i f
  | .dataMut f, t => t.dataMut f
  | .bytesMut f, t => t.bytesMut f
  | .stringsMut f, t => t.stringsMut f
  | .imagesMut f, t => t.imagesMut f
  | .setString i s, t => t.setString i s
  | .setStrings i l, t => t.setStrings i l
  | .addString i s, t => t.addString i s
  | .addStrings i l, t => t.addStrings i l
  | .setFlag i, t => t.setFlag i
  | .setInt i size n, t => t.setInt i size n
  | .setArtwork i, t => t.setArtwork i
  | .setArtworks l, t => t.setArtworks l
  | .addArtwork i, t => t.addArtwork i
  | .addArtworks l, t => t.addArtworks l
  | .setMediaType m, t => t.setMediaType m
  | .setAdvisoryRating r, t => t.setAdvisoryRating r
  | .setPair i n m, t => t.setPair i n m
  | .setNumber i n, t => t.setNumber i n
  | .setTotal i m, t => t.setTotal i m
  | .removeNumber i, t => t.removeNumber i
  | .removeTotal i, t => t.removeTotal i
  | .setStandardGenre c, t => t.setStandardGenre c
  | .setStandardGenres cs, t => t.setStandardGenres cs
  | .addStandardGenre c, t => t.addStandardGenre c
  | .addStandardGenres cs, t => t.addStandardGenres cs
  | .setGenre s, t => t.setGenre s
  | .setGenres l, t => t.setGenres l
  | .removeGenres, t => t.removeGenres
  | .takeGenres, t => t.takeGenres.2
  | .takeGenre, t => t.takeGenre.2

/-- A sequence of calls. -/
def runOps (ops : List TagOp) (t : Tag) : Tag := ops.foldl (fun t o => o.run t) t

end Mp4
