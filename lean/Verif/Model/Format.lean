import Verif.Model.Display
import Verif.Model.Describe
/-
Printing to a formatter that may fail (`Display for Tag`, src/tag/mod.rs:32-83; `Display for Error`, src/error.rs:90-107).
The texts are those of Model/Display.lean; here every call of `write_str` and every `?` is modelled.
-/
namespace Mp4

/-- What is behind a `fmt::Formatter`: `write_str` accepts a text or fails (std::fmt::Write, trusted). `cut` says in which pieces std
passes a text on: literals may be joined or split, numbers and paddings are written in pieces. -/
structure Formatter (σ : Type) where
  cut : Str → List Str
  write : Str → σ → Bool × σ

/-- A function `fn(&mut Formatter) -> fmt::Result`; `false` is `Err`. -/
abbrev Fm (σ : Type) := σ → Bool × σ

/-- `Ok(())` -/
def Fm.done {σ} : Fm σ := fun s => (true, s)

/-- `a?; b` -/
def Fm.andThen {σ} (a b : Fm σ) : Fm σ := fun s =>
  match a s with
  | (true, s') => b s'
  | (false, s') => (false, s')

/-- `for x in xs { f(x)? }` -/
def Fm.each {σ α} (f : α → Fm σ) : List α → Fm σ
  | [] => .done
  | x :: xs => (f x).andThen (Fm.each f xs)

variable {σ : Type}

/-- A literal in a format string, or an argument whose `Display` or `Debug` is std's. std's `fmt::write` stops at the first
failure (trusted). -/
def Formatter.text (c : Formatter σ) (s : Str) : Fm σ := Fm.each c.write (c.cut s)

/-- `writeln!(f, ..)` -/
def Formatter.ln (c : Formatter σ) (m : Fm σ) : Fm σ := m.andThen (c.text ['\n'])

/-- `Display for SampleRate` (src/types.rs:318-322). -/
def SampleRate.fmt (c : Formatter σ) (r : SampleRate) : Fm σ := (c.text (decimal r.hz)).andThen (c.text "Hz".toList)

/-- `Debug for Data` (src/atom/data.rs:106-118). -/
def Data.fmt (c : Formatter σ) (esc : Char → Str) : Data → Fm σ
  | .reserved d => (c.text "Data::Reserved(".toList).andThen ((c.text (debugBytes d)).andThen (c.text ")".toList))
  | .utf8 d => (c.text "Data::Utf8(".toList).andThen ((c.text (debugStr esc d)).andThen (c.text ")".toList))
  | .utf16 d => (c.text "Data::Utf16(".toList).andThen ((c.text (debugStr esc d)).andThen (c.text ")".toList))
  | .jpeg _ => c.text "Data::Jpeg".toList
  | .png _ => c.text "Data::Png".toList
  | .beSigned d => (c.text "Data::BeSigned(".toList).andThen ((c.text (debugBytes d)).andThen (c.text ")".toList))
  | .bmp _ => c.text "Data::Bmp".toList

/-- `Display for DataIdent` (src/atom/ident.rs:285-292), with `Display for Fourcc` (src/atom/ident.rs:208-212). -/
def DataIdent.fmt (c : Formatter σ) : DataIdent → Fm σ
  | .fourcc f => c.text f.display
  | .freeform mean name =>
    (c.text "----:".toList).andThen ((c.text mean).andThen ((c.text ":".toList).andThen (c.text name)))

/-- `match x { Some(s) => writeln!(f, "name: {}", s), None => Ok(()) }` -/
def Formatter.optLine {α} (c : Formatter σ) (name : Str) (p : α → Fm σ) : Option α → Fm σ
  | some v => c.ln ((c.text name).andThen ((c.text ": ".toList).andThen (p v)))
  | none => .done

/-- `if xs.count() > 1 { writeln!(f, "plural:")?; for s in xs { writeln!(f, "    {}", s)?; } } else if let Some(s) = x {
writeln!(f, "name: {}", s)?; } Ok(())` -/
def Formatter.listLines {α} (c : Formatter σ) (name plural : Str) (p : α → Fm σ) (vs : List α) (first : Option α) : Fm σ :=
  Fm.andThen
    (if vs.length > 1 then
      (c.ln ((c.text plural).andThen (c.text ":".toList))).andThen
        (Fm.each (fun v => c.ln ((c.text "    ".toList).andThen (p v))) vs)
    else
      match first with
      | some v => c.ln ((c.text name).andThen ((c.text ": ".toList).andThen (p v)))
      | none => .done)
    .done

/-- `format_x` of a single string value (proc/src/lib.rs:70-75). -/
def Tag.fmtSingle (c : Formatter σ) (t : Tag) (vi : String) : Fm σ :=
  c.optLine (valueName vi) c.text (t.getString (macroIdent! vi))

/-- `format_xs` of multiple string values (proc/src/lib.rs:154-164). -/
def Tag.fmtMulti (c : Formatter σ) (t : Tag) (vi : String) : Fm σ :=
  c.listLines (valueName vi) (pluralName (valueName vi)) c.text (t.getStrings (macroIdent! vi)) (t.getString (macroIdent! vi))

/-- `format_x` of a flag (proc/src/lib.rs:207-212). -/
def Tag.fmtFlag (c : Formatter σ) (t : Tag) (vi : String) : Fm σ :=
  match t.getFlag (macroIdent! vi) with
  | true => c.ln (c.text (valueName vi))
  | false => .done

/-- `format_x` of an integer (proc/src/lib.rs:251-256, 295-300). -/
def Tag.fmtInt (c : Formatter σ) (t : Tag) (vi : String) (size : Nat) : Fm σ :=
  c.optLine (valueName vi) (fun n => c.text (decimal n)) (t.getInt (macroIdent! vi) size)

/-- `format_genres` (src/tag/genre.rs:202-212). -/
def Tag.fmtGenres (c : Formatter σ) (t : Tag) : Fm σ := c.listLines "genre".toList "genres".toList c.text t.genres t.genre

/-- `format_track`, `format_disc` (src/tag/tuple.rs:91-98, 187-194). -/
def Tag.fmtPair (c : Formatter σ) (t : Tag) (name : Str) (i : Ident) : Fm σ :=
  match t.getPair i with
  | (some d, some n) => c.ln ((c.text (name ++ ": ".toList)).andThen ((c.text (decimal d)).andThen
      ((c.text " of ".toList).andThen (c.text (decimal n)))))
  | (some d, none) => c.ln ((c.text (name ++ ": ".toList)).andThen (c.text (decimal d)))
  | (none, some n) => c.ln ((c.text (name ++ ": ? of ".toList)).andThen (c.text (decimal n)))
  | (none, none) => .done

/-- `format_artwork` (src/tag/mod.rs:217-236). -/
def fmtArtwork (c : Formatter σ) (i : Img) : Fm σ :=
  Fm.andThen
    (match i.fmt with
    | .png => c.text "png".toList
    | .jpeg => c.text "jpeg".toList
    | .bmp => c.text "bmp".toList)
    (let len := i.data.length
    Fm.andThen
      (if len < 1024 then c.ln ((c.text " ".toList).andThen (c.text (decimal len)))
      else if len < 1024 * 1024 then
        c.ln ((c.text " ".toList).andThen ((c.text (decimal (len / 1024))).andThen (c.text "k".toList)))
      else
        c.ln ((c.text " ".toList).andThen ((c.text (decimal (len / (1024 * 1024)))).andThen (c.text "M".toList))))
      .done)

/-- `format_artworks` (src/tag/mod.rs:216-249). -/
def Tag.fmtArtworks (c : Formatter σ) (t : Tag) : Fm σ :=
  Fm.andThen
    (if t.artworks.length > 1 then
      (c.ln (c.text "artworks:".toList)).andThen
        (Fm.each (fun a => (c.text "    ".toList).andThen (fmtArtwork c a)) t.artworks)
    else
      match t.artwork with
      | some a => (c.text "artwork: ".toList).andThen (fmtArtwork c a)
      | none => .done)
    .done

/-- `format_media_type` (src/tag/mod.rs:275-280), with `Display for MediaType` (src/types.rs:135-148). -/
def Tag.fmtMediaType (c : Formatter σ) (t : Tag) : Fm σ := c.optLine "media type".toList (fun m => c.text m.display) t.mediaType

/-- `format_advisory_rating` (src/tag/mod.rs:306-311), with `Display for AdvisoryRating` (src/types.rs:183-191). -/
def Tag.fmtAdvisoryRating (c : Formatter σ) (t : Tag) : Fm σ :=
  c.optLine "advisory rating".toList (fun r => c.text r.display) t.advisoryRating

/-- `format_duration` (src/tag/readonly.rs:19-40); every arm is one `writeln!`. -/
def Tag.fmtDuration (c : Formatter σ) (t : Tag) : Fm σ := c.optLine "duration".toList (fun d => c.text (durationText d)) t.duration

/-- `format_channel_config` (src/tag/readonly.rs:47-52), with `Display for ChannelConfig` (src/types.rs:247-259). -/
def Tag.fmtChannelConfig (c : Formatter σ) (t : Tag) : Fm σ :=
  c.optLine "channel config".toList (fun x => c.text x.display) t.channelConfig

/-- `format_sample_rate` (src/tag/readonly.rs:59-64). -/
def Tag.fmtSampleRate (c : Formatter σ) (t : Tag) : Fm σ := c.optLine "sample rate".toList (SampleRate.fmt c) t.sampleRate

/-- `format_avg_bitrate` (src/tag/readonly.rs:71-76). -/
def Tag.fmtAvgBitrate (c : Formatter σ) (t : Tag) : Fm σ :=
  c.optLine "average bitrate".toList (fun n => (c.text (decimal (n / 1024))).andThen (c.text "kbps".toList)) t.avgBitrate

/-- `format_max_bitrate` (src/tag/readonly.rs:83-88). -/
def Tag.fmtMaxBitrate (c : Formatter σ) (t : Tag) : Fm σ :=
  c.optLine "maximum bitrate".toList (fun n => (c.text (decimal (n / 1024))).andThen (c.text "kbps".toList)) t.maxBitrate

/-- The body of the loop over the entries (src/tag/mod.rs:75-80). -/
def AtomData.fmtFreeform (c : Formatter σ) (esc : Char → Str) (a : AtomData) : Fm σ :=
  match a.ident with
  | .freeform _ _ => (c.ln ((a.ident.fmt c).andThen (c.text ":".toList))).andThen
      (Fm.each (fun d => c.ln ((c.text "    ".toList).andThen (d.fmt c esc))) a.data)
  | .fourcc _ => .done

/-- The calls in front of the loop, in order (src/tag/mod.rs:34-73). -/
def Tag.fmtLines (c : Formatter σ) (t : Tag) : List (Fm σ) := [
  t.fmtMulti c "album_artist",
  t.fmtMulti c "artist",
  t.fmtMulti c "composer",
  t.fmtMulti c "lyricist",
  t.fmtSingle c "album",
  t.fmtSingle c "title",
  t.fmtGenres c,
  t.fmtSingle c "year",
  t.fmtPair c "track".toList trackI,
  t.fmtPair c "disc".toList discI,
  t.fmtArtworks c,
  t.fmtAdvisoryRating c,
  t.fmtMediaType c,
  t.fmtMulti c "grouping",
  t.fmtMulti c "description",
  t.fmtMulti c "comment",
  t.fmtMulti c "category",
  t.fmtMulti c "keyword",
  t.fmtSingle c "copyright",
  t.fmtSingle c "encoder",
  t.fmtSingle c "tv_show_name",
  t.fmtSingle c "tv_network_name",
  t.fmtSingle c "tv_episode_name",
  t.fmtInt c "tv_episode" 4,
  t.fmtInt c "tv_season" 4,
  t.fmtInt c "bpm" 2,
  t.fmtSingle c "movement",
  t.fmtSingle c "work",
  t.fmtInt c "movement_count" 2,
  t.fmtInt c "movement_index" 2,
  t.fmtDuration c,
  t.fmtChannelConfig c,
  t.fmtSampleRate c,
  t.fmtAvgBitrate c,
  t.fmtMaxBitrate c,
  t.fmtFlag c "show_movement",
  t.fmtFlag c "gapless_playback",
  t.fmtFlag c "compilation",
  t.fmtSingle c "isrc",
  t.fmtSingle c "lyrics"]

/-- `Display for Tag` (src/tag/mod.rs:32-83). -/
def Tag.fmt (c : Formatter σ) (esc : Char → Str) (t : Tag) : Fm σ :=
  (Fm.each id (t.fmtLines c)).andThen ((Fm.each (AtomData.fmtFreeform c esc) t.atoms).andThen
    (c.ln ((c.text "filetype: ".toList).andThen (c.text t.filetype))))

/-- `Debug for Error` and `Display for Error` (src/error.rs:90-107). The derived `Debug for ErrorKind` is std's. -/
def errorFmt (c : Formatter σ) (x : Str) (k : ErrKind) (d : Str) : Fm σ :=
  if d.isEmpty then c.text (k.debug x) else (c.text (k.debug x)).andThen ((c.text ": ".toList).andThen (c.text d))

end Mp4
