import Verif.Model.Tag
/-
The textual representation of a tag (`Display for Tag`, src/tag/mod.rs:32-83) and of the values in it.
Writing to the formatter is modelled as appending to a string; formatters that fail are in
Model/Format.lean (the one of `to_string` does not).
-/
namespace Mp4

/-- `{}` of an unsigned integer: its decimal digits (trusted, std). -/
def decimal (n : Nat) : Str :=
  if h : n < 10 then [Char.ofNat (48 + n)] else decimal (n / 10) ++ [Char.ofNat (48 + n % 10)]
decreasing_by omega

/-- `{:02}` of an unsigned integer (trusted, std). -/
def decimal2 (n : Nat) : Str := if n < 10 then '0' :: decimal n else decimal n

/-- What `writeln!` appends. -/
def line (s : Str) : Str := s ++ ['\n']

/-- `Display for MediaType` (src/types.rs:135-148). -/
def MediaType.display : MediaType → Str
  | .movie => "Movie".toList
  | .normal => "Normal".toList
  | .audioBook => "Audiobook".toList
  | .whackedBookmark => "Whacked Bookmark".toList
  | .musicVideo => "Music Video".toList
  | .shortFilm => "Short Film".toList
  | .tvShow => "TV-Show".toList
  | .booklet => "Booklet".toList

/-- `Display for AdvisoryRating` (src/types.rs:183-191). -/
def AdvisoryRating.display : AdvisoryRating → Str
  | .clean => "Clean".toList
  | .inoffensive => "Inoffensive".toList
  | .explicit => "Explicit".toList

/-- `Display for ChannelConfig` (src/types.rs:247-259). -/
def ChannelConfig.display : ChannelConfig → Str
  | .mono => "Mono".toList
  | .stereo => "Stereo".toList
  | .three => "3.0".toList
  | .four => "4.0".toList
  | .five => "5.0".toList
  | .fiveOne => "5.1".toList
  | .sevenOne => "7.1".toList

/-- `Display for SampleRate` (src/types.rs:318-322). -/
def SampleRate.display (r : SampleRate) : Str := decimal r.hz ++ "Hz".toList

/-- `{:?}` of a `Vec<u8>` (trusted, std). -/
def debugBytes (v : Bytes) : Str :=
  '[' :: (List.intercalate ", ".toList (v.map fun b => decimal b.toNat) ++ [']'])

/-- `{:?}` of a string (trusted, std): every character escaped on its own by `esc`, in quotes. Which
characters are escaped depends on the Unicode tables of the standard library; `esc` is a parameter. -/
def debugStr (esc : Char → Str) (s : Str) : Str := '"' :: (s.flatMap esc ++ ['"'])

/-- `Debug for Data` (src/atom/data.rs:106-118). -/
def Data.debug (esc : Char → Str) : Data → Str
  | .reserved d => "Data::Reserved(".toList ++ debugBytes d ++ ")".toList
  | .utf8 d => "Data::Utf8(".toList ++ debugStr esc d ++ ")".toList
  | .utf16 d => "Data::Utf16(".toList ++ debugStr esc d ++ ")".toList
  | .jpeg _ => "Data::Jpeg".toList
  | .png _ => "Data::Png".toList
  | .beSigned d => "Data::BeSigned(".toList ++ debugBytes d ++ ")".toList
  | .bmp _ => "Data::Bmp".toList

/-! ### The generated `format_*` functions -/

/-- The name of a value: the first argument of the macro with blanks for underscores
(proc/src/lib.rs:16). -/
def valueName (vi : String) : Str := vi.toList.map fun c => if c = '_' then ' ' else c

/-- The plural of a name (proc/src/lib.rs:92-100). -/
def pluralName (n : Str) : Str :=
  if n.getLast? = some 'y' then n.dropLast ++ "ies".toList else n ++ "s".toList

/-- The identifier constant a macro invocation refers to; if there were none the crate would not
compile. -/
def macroIdent! (vi : String) : Ident := (macroIdent vi).getD (.fourcc FREE)

/-- `{name}: {value}` if there is a value, otherwise nothing. -/
def optLine (name : Str) (v : Option Str) : Str :=
  match v with
  | some s => line (name ++ ": ".toList ++ s)
  | none => []

/-- All values, one per line below the plural, if there are several; otherwise the first one. -/
def listLines (name plural : Str) (vs : List Str) (first : Option Str) : Str :=
  if vs.length > 1 then line (plural ++ ":".toList) ++ vs.flatMap fun s => line ("    ".toList ++ s)
  else optLine name first

/-- `format_x` of a single string value (proc/src/lib.rs:70-75). -/
def Tag.formatSingle (t : Tag) (vi : String) : Str :=
  optLine (valueName vi) (t.getString (macroIdent! vi))

/-- `format_xs` of multiple string values (proc/src/lib.rs:154-164). -/
def Tag.formatMulti (t : Tag) (vi : String) : Str :=
  listLines (valueName vi) (pluralName (valueName vi)) (t.getStrings (macroIdent! vi))
    (t.getString (macroIdent! vi))

/-- `format_x` of a flag (proc/src/lib.rs:207-212). -/
def Tag.formatFlag (t : Tag) (vi : String) : Str :=
  if t.getFlag (macroIdent! vi) then line (valueName vi) else []

/-- `format_x` of an integer (proc/src/lib.rs:251-256, 295-300). -/
def Tag.formatInt (t : Tag) (vi : String) (size : Nat) : Str :=
  optLine (valueName vi) ((t.getInt (macroIdent! vi) size).map decimal)

/-! ### The other `format_*` functions -/

/-- `format_genres` (src/tag/genre.rs:202-212). -/
def Tag.formatGenres (t : Tag) : Str := listLines "genre".toList "genres".toList t.genres t.genre

/-- `format_track`, `format_disc` (src/tag/tuple.rs:91-98, 187-194). -/
def Tag.formatPair (t : Tag) (name : Str) (i : Ident) : Str :=
  match t.getPair i with
  | (some d, some n) => line (name ++ ": ".toList ++ decimal d ++ " of ".toList ++ decimal n)
  | (some d, none) => line (name ++ ": ".toList ++ decimal d)
  | (none, some n) => line (name ++ ": ? of ".toList ++ decimal n)
  | (none, none) => []

/-- `format_artwork` (src/tag/mod.rs:217-236), without the line break. -/
def formatArtwork (i : Img) : Str :=
  (match i.fmt with
    | .png => "png".toList
    | .jpeg => "jpeg".toList
    | .bmp => "bmp".toList) ++
  let len := i.data.length
  if len < 1024 then " ".toList ++ decimal len
  else if len < 1024 * 1024 then " ".toList ++ decimal (len / 1024) ++ "k".toList
  else " ".toList ++ decimal (len / (1024 * 1024)) ++ "M".toList

/-- `format_artworks` (src/tag/mod.rs:216-249). -/
def Tag.formatArtworks (t : Tag) : Str :=
  listLines "artwork".toList "artworks".toList (t.artworks.map formatArtwork) (t.artwork.map formatArtwork)

/-- `format_media_type` (src/tag/mod.rs:275-280). -/
def Tag.formatMediaType (t : Tag) : Str := optLine "media type".toList (t.mediaType.map MediaType.display)

/-- `format_advisory_rating` (src/tag/mod.rs:306-311). -/
def Tag.formatAdvisoryRating (t : Tag) : Str :=
  optLine "advisory rating".toList (t.advisoryRating.map AdvisoryRating.display)

/-- The match in `format_duration` (src/tag/readonly.rs:32-39). -/
def durationParts (hours minutes seconds millis micros nanos : Nat) : Str :=
  match hours, minutes, seconds, millis, micros, nanos with
  | 0, 0, 0, 0, 0, n => decimal n ++ "ns".toList
  | 0, 0, 0, 0, u, _ => decimal u ++ "µs".toList
  | 0, 0, 0, m, _, _ => decimal m ++ "ms".toList
  | 0, 0, s, _, _, _ => decimal s ++ "s".toList
  | 0, m, s, _, _, _ => decimal m ++ ":".toList ++ decimal2 s
  | h, m, s, _, _, _ => decimal h ++ ":".toList ++ decimal2 m ++ ":".toList ++ decimal2 s

/-- The text `format_duration` (src/tag/readonly.rs:24-39) writes after `duration: ` for a duration of
`d` nanoseconds. -/
def durationText (d : Nat) : Str :=
  let totalSeconds := d / 1000000000
  let nanos := d % 1000000000
  let micros := nanos / 1000
  let millis := nanos / 1000000
  let seconds := totalSeconds % 60
  let minutes := totalSeconds / 60 % 60
  let hours := totalSeconds / 60 / 60
  durationParts hours minutes seconds millis micros nanos

/-- `format_duration` (src/tag/readonly.rs:19-40). -/
def Tag.formatDuration (t : Tag) : Str := optLine "duration".toList (t.duration.map durationText)

/-- `format_channel_config` (src/tag/readonly.rs:47-52). -/
def Tag.formatChannelConfig (t : Tag) : Str :=
  optLine "channel config".toList (t.channelConfig.map ChannelConfig.display)

/-- `format_sample_rate` (src/tag/readonly.rs:59-64). -/
def Tag.formatSampleRate (t : Tag) : Str :=
  optLine "sample rate".toList (t.sampleRate.map SampleRate.display)

/-- `format_avg_bitrate` (src/tag/readonly.rs:71-76). -/
def Tag.formatAvgBitrate (t : Tag) : Str :=
  optLine "average bitrate".toList (t.avgBitrate.map fun c => decimal (c / 1024) ++ "kbps".toList)

/-- `format_max_bitrate` (src/tag/readonly.rs:83-88). -/
def Tag.formatMaxBitrate (t : Tag) : Str :=
  optLine "maximum bitrate".toList (t.maxBitrate.map fun c => decimal (c / 1024) ++ "kbps".toList)

/-- The lines of one freeform entry (src/tag/mod.rs:75-79); nothing for other entries. -/
def AtomData.formatFreeform (esc : Char → Str) (a : AtomData) : Str :=
  match a.ident with
  | .freeform _ _ => line (a.ident.display ++ ":".toList) ++
      a.data.flatMap fun d => line ("    ".toList ++ d.debug esc)
  | .fourcc _ => []

/-- `Display for Tag` (src/tag/mod.rs:32-83). -/
def Tag.display (esc : Char → Str) (t : Tag) : Str :=
  t.formatMulti "album_artist" ++
  t.formatMulti "artist" ++
  t.formatMulti "composer" ++
  t.formatMulti "lyricist" ++
  t.formatSingle "album" ++
  t.formatSingle "title" ++
  t.formatGenres ++
  t.formatSingle "year" ++
  t.formatPair "track".toList trackI ++
  t.formatPair "disc".toList discI ++
  t.formatArtworks ++
  t.formatAdvisoryRating ++
  t.formatMediaType ++
  t.formatMulti "grouping" ++
  t.formatMulti "description" ++
  t.formatMulti "comment" ++
  t.formatMulti "category" ++
  t.formatMulti "keyword" ++
  t.formatSingle "copyright" ++
  t.formatSingle "encoder" ++
  t.formatSingle "tv_show_name" ++
  t.formatSingle "tv_network_name" ++
  t.formatSingle "tv_episode_name" ++
  t.formatInt "tv_episode" 4 ++
  t.formatInt "tv_season" 4 ++
  t.formatInt "bpm" 2 ++
  t.formatSingle "movement" ++
  t.formatSingle "work" ++
  t.formatInt "movement_count" 2 ++
  t.formatInt "movement_index" 2 ++
  t.formatDuration ++
  t.formatChannelConfig ++
  t.formatSampleRate ++
  t.formatAvgBitrate ++
  t.formatMaxBitrate ++
  t.formatFlag "show_movement" ++
  t.formatFlag "gapless_playback" ++
  t.formatFlag "compilation" ++
  t.formatSingle "isrc" ++
  t.formatSingle "lyrics" ++
  t.atoms.flatMap (AtomData.formatFreeform esc) ++
  line ("filetype: ".toList ++ t.filetype)

end Mp4
