import Verif.Model.Tag
/-
A reader for the textual representation of a tag: how a person (or a script) looks up a value in the
printed text. Written without reference to how the library prints.
-/
namespace Mp4.Spec
open Mp4

/-- The textPieces of a text between occurrences of `c`. -/
def textPieces (c : Char) : Str → List Str
  | [] => [[]]
  | x :: r =>
    if x = c then [] :: textPieces c r
    else match textPieces c r with
      | h :: t => (x :: h) :: t
      | [] => [[x]]

/-- The lines of a text in which every line is terminated. -/
def linesOf (s : Str) : List Str := (textPieces '\n' s).dropLast

/-- Lines of a list are indented by four blanks. -/
def indented (l : Str) : Bool := "    ".toList.isPrefixOf l

/-- The values shown for a field: what follows `name: ` on its line, or the indented lines below
`names:`. -/
def fieldValues (name names : Str) : List Str → List Str
  | [] => []
  | l :: r =>
    if (name ++ ": ".toList).isPrefixOf l then [l.drop (name.length + 2)]
    else if l = names ++ ":".toList then (r.takeWhile indented).map (·.drop 4)
    else fieldValues name names r

/-- The value of a digit. -/
def digitVal (c : Char) : Option Nat :=
  if 48 ≤ c.toNat ∧ c.toNat ≤ 57 then some (c.toNat - 48) else none

/-- The number written in decimal, continuing from `acc`. -/
def readDigits : Nat → Str → Option Nat
  | acc, [] => some acc
  | acc, c :: r => (digitVal c).bind fun d => readDigits (10 * acc + d) r

/-- The number written in decimal. -/
def readNat (s : Str) : Option Nat := if s = [] then none else readDigits 0 s

/-- The text in front of a suffix. -/
def stripEnd (suf s : Str) : Option Str := if suf.isSuffixOf s then some (s.take (s.length - suf.length)) else none

/-- A number of minutes or seconds below a larger unit: two digits, less than sixty. -/
def readSixty (s : Str) : Option Nat :=
  (readNat s).bind fun n => if s.length = 2 ∧ n < 60 then some n else none

/-- A printed duration: an amount and the unit it is in, in nanoseconds. -/
def readDuration (s : Str) : Option (Nat × Nat) :=
  match textPieces ':' s with
  | [h, m, s] => (readNat h).bind fun h => (readSixty m).bind fun m => (readSixty s).bind fun s =>
      some (3600 * h + 60 * m + s, 10^9)
  | [m, s] => (readNat m).bind fun m => (readSixty s).bind fun s => some (60 * m + s, 10^9)
  | [x] =>
    match stripEnd "ns".toList x, stripEnd "µs".toList x, stripEnd "ms".toList x, stripEnd "s".toList x with
    | some n, _, _, _ => (readNat n).map (·, 1)
    | _, some n, _, _ => (readNat n).map (·, 10^3)
    | _, _, some n, _ => (readNat n).map (·, 10^6)
    | _, _, _, some n => (readNat n).map (·, 10^9)
    | _, _, _, _ => none
  | _ => none

/-- The unit a duration is rounded down to for printing. -/
def durationUnit (ns : Nat) : Nat :=
  if ns < 10^3 then 1 else if ns < 10^6 then 10^3 else if ns < 10^9 then 10^6 else 10^9

/-- A printed pair of a number and a total: `3 of 12`, `3` or `? of 12`. -/
def readPair (s : Str) : Option (Option Nat × Option Nat) :=
  match textPieces ' ' s with
  | [n] => (readNat n).map fun n => (some n, none)
  | [n, o, m] =>
    if o ≠ "of".toList then none
    else (readNat m).bind fun m =>
      if n = "?".toList then some (none, some m) else (readNat n).map fun n => (some n, some m)
  | _ => none

/-- A printed image: the format, an amount and the unit it is in, in bytes. -/
def readImage (s : Str) : Option (ImgFmt × Nat × Nat) :=
  match textPieces ' ' s with
  | [f, n] =>
    (if f = "png".toList then some ImgFmt.png else if f = "jpeg".toList then some .jpeg
      else if f = "bmp".toList then some .bmp else none).bind fun f =>
    match stripEnd "k".toList n, stripEnd "M".toList n with
    | some n, _ => (readNat n).map (f, ·, 1024)
    | _, some n => (readNat n).map (f, ·, 1024 * 1024)
    | _, _ => (readNat n).map (f, ·, 1)
  | _ => none

/-- The unit the size of an image is rounded down to for printing. -/
def imageUnit (len : Nat) : Nat :=
  if len < 1024 then 1 else if len < 1024 * 1024 then 1024 else 1024 * 1024

/-- No text in the tag contains a line break. -/
structure OneLine (t : Tag) : Prop where
  ftyp : '\n' ∉ t.ftyp
  value : ∀ a ∈ t.atoms, ∀ d ∈ a.data, ∀ s, d = .utf8 s ∨ d = .utf16 s → '\n' ∉ s
  ident : ∀ a ∈ t.atoms, ∀ mean name, a.ident = .freeform mean name → '\n' ∉ mean ∧ '\n' ∉ name


/-- The fields with any number of texts: identifier, name, plural. -/
def listFields : List (DataIdent × String × String) := [
  (.fourcc (cc 'a' 'A' 'R' 'T'), "album artist", "album artists"),
  (.fourcc (cc '©' 'A' 'R' 'T'), "artist", "artists"),
  (.fourcc (cc '©' 'w' 'r' 't'), "composer", "composers"),
  (.freeform "com.apple.iTunes".toList "LYRICIST".toList, "lyricist", "lyricists"),
  (.fourcc (cc '©' 'g' 'r' 'p'), "grouping", "groupings"),
  (.fourcc (cc 'd' 'e' 's' 'c'), "description", "descriptions"),
  (.fourcc (cc '©' 'c' 'm' 't'), "comment", "comments"),
  (.fourcc (cc 'c' 'a' 't' 'g'), "category", "categories"),
  (.fourcc (cc 'k' 'e' 'y' 'w'), "keyword", "keywords")]

/-- The fields with one text. -/
def textFields : List (DataIdent × String) := [
  (.fourcc (cc '©' 'a' 'l' 'b'), "album"),
  (.fourcc (cc '©' 'n' 'a' 'm'), "title"),
  (.fourcc (cc '©' 'd' 'a' 'y'), "year"),
  (.fourcc (cc 'c' 'p' 'r' 't'), "copyright"),
  (.fourcc (cc '©' 't' 'o' 'o'), "encoder"),
  (.fourcc (cc 't' 'v' 's' 'h'), "tv show name"),
  (.fourcc (cc 't' 'v' 'n' 'n'), "tv network name"),
  (.fourcc (cc 't' 'v' 'e' 'n'), "tv episode name"),
  (.fourcc (cc '©' 'm' 'v' 'n'), "movement"),
  (.fourcc (cc '©' 'w' 'r' 'k'), "work"),
  (.freeform "com.apple.iTunes".toList "ISRC".toList, "isrc"),
  (.fourcc (cc '©' 'l' 'y' 'r'), "lyrics")]

/-- The fields with a number: identifier, size in bytes, name. -/
def numberFields : List (DataIdent × Nat × String) := [
  (.fourcc (cc 't' 'v' 'e' 's'), 4, "tv episode"),
  (.fourcc (cc 't' 'v' 's' 'n'), 4, "tv season"),
  (.fourcc (cc 't' 'm' 'p' 'o'), 2, "bpm"),
  (.fourcc (cc '©' 'm' 'v' 'c'), 2, "movement count"),
  (.fourcc (cc '©' 'm' 'v' 'i'), 2, "movement index")]

/-- The flags. -/
def flagFields : List (DataIdent × String) := [
  (.fourcc (cc 's' 'h' 'w' 'm'), "show movement"),
  (.fourcc (cc 'p' 'g' 'a' 'p'), "gapless playback"),
  (.fourcc (cc 'c' 'p' 'i' 'l'), "compilation")]

end Mp4.Spec
