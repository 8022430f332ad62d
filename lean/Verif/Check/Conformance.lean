import Verif.Model.Display
import Verif.Model.Write
/-
The assertions of /repo/tests/test.rs, of the unit tests in src/atom/data.rs and of the examples in the documentation of
src/tag/mod.rs, evaluated in the model on the sample files of /repo/files. A check that the model
describes the code; no proof. The build only compiles it. Run in /verif/lean:

    echo 'import Verif.Check.Conformance #eval Mp4.Conformance.run "/repo/files"' | lake env lean --stdin
-/
namespace Mp4.Conformance
open Mp4

def env : Env := { checked := true, fuel := 10000000, maxPos := 2^63 - 1, cap := 8192, rcur := fun _ => 0 }

def _root_.Mp4.Tag.str (t : Tag) (vi : String) : Option String := (t.getString (macroIdent! vi)).map String.ofList
def _root_.Mp4.Tag.strs (t : Tag) (vi : String) : List String := (t.getStrings (macroIdent! vi)).map String.ofList
def _root_.Mp4.Tag.flag (t : Tag) (vi : String) : Bool := t.getFlag (macroIdent! vi)
def _root_.Mp4.Tag.withStr (t : Tag) (vi s : String) : Tag := t.setString (macroIdent! vi) s.toList
def _root_.Mp4.Tag.addStr (t : Tag) (vi s : String) : Tag := t.addString (macroIdent! vi) s.toList
def _root_.Mp4.Tag.withFlag (t : Tag) (vi : String) : Tag := t.setFlag (macroIdent! vi)
def _root_.Mp4.Tag.withBpm (t : Tag) (n : Nat) : Tag := t.setInt (macroIdent! "bpm") 2 n
def genreOf (t : Tag) : Option String := t.genre.map String.ofList

/-- tests/test.rs:40-68 -/
def tag1 (png : Bytes) : Tag :=
  let t : Tag := {}
  let t := t.setAdvisoryRating .explicit
  let t := ((t.withStr "album" "TEST ALBUM").withStr "album_artist" "TEST ALBUM ARTIST").withStr "artist" "TEST ARTIST"
  let t := t.withBpm 132
  let t := ((t.withStr "category" "TEST CATEGORY").withStr "comment" "TEST COMMENT").withFlag "compilation"
  let t := ((t.withStr "composer" "TEST COMPOSER").withStr "copyright" "TEST COPYRIGHT").withStr "description" "TEST DESCRIPTION"
  let t := ((t.setPair discI 1 2).withStr "encoder" "Lavf58.29.100").withFlag "gapless_playback"
  let t := ((t.setGenre "Hard Rock".toList).withStr "grouping" "TEST GROUPING").withStr "keyword" "TEST KEYWORD"
  let t := ((t.withStr "lyrics" "TEST LYRICS").setMediaType .normal).withStr "title" "TEST TITLE"
  let t := ((t.setPair trackI 7 13).withStr "year" "2013").setArtwork ⟨.png, png⟩
  (t.withStr "isrc" "TEST ISRC").withStr "lyricist" "TEST LYRICIST"

def artwork2 : Bytes := "NEW ARTWORK".toUTF8.toList

/-- tests/test.rs:70-98 -/
def tag2 : Tag :=
  let t : Tag := {}
  let t := t.setAdvisoryRating .inoffensive
  let t := ((t.withStr "album" "NEW ALBUM").withStr "album_artist" "NEW ALBUM ARTIST").withStr "artist" "NEW ARTIST"
  let t := t.withBpm 98
  let t := ((t.withStr "category" "NEW CATEGORY").withStr "comment" "NEW COMMENT").withFlag "compilation"
  let t := ((t.withStr "composer" "NEW COMPOSER").withStr "copyright" "NEW COPYRIGHT").withStr "description" "NEW DESCRIPTION"
  let t := ((t.setPair discI 2 0).withStr "encoder" "Lavf58.12.100").withFlag "gapless_playback"
  let t := ((t.setGenre "Hard Rock".toList).withStr "grouping" "NEW GROUPING").withStr "keyword" "NEW KEYWORD"
  let t := ((t.withStr "lyrics" "NEW LYRICS").setMediaType .audioBook).withStr "title" "NEW TITLE"
  let t := ((t.setPair trackI 3 7).withStr "year" "1998").setArtwork ⟨.jpeg, artwork2⟩
  (t.withStr "isrc" "NEW ISRC").withStr "lyricist" "NEW LYRICIST"

/-- The single strings, flags and numbers of tests/test.rs:100-200. -/
def common (t : Tag) (x encoder year : String) (rating : AdvisoryRating) (media : MediaType) (bpm : Nat)
    (disc track : Option Nat × Option Nat) (art : Img) : List (String × Bool) :=
  (["album", "album_artist", "category", "comment", "composer", "copyright", "description", "grouping", "keyword", "lyrics", "title",
    "isrc"].map fun vi => (vi, t.str vi == some (x ++ " " ++ (vi.toUpper.replace "_" " ")))) ++
  [("advisory_rating", t.advisoryRating == some rating), ("bpm", t.getInt (macroIdent! "bpm") 2 == some bpm),
   ("compilation", t.flag "compilation"), ("disc", t.getPair discI == disc), ("disc_number", t.getNumber discI == disc.1),
   ("total_discs", t.getTotal discI == disc.2), ("encoder", t.str "encoder" == some encoder),
   ("gapless_playback", t.flag "gapless_playback"), ("media_type", t.mediaType == some media),
   ("track", t.getPair trackI == track), ("track_number", t.getNumber trackI == track.1), ("total_tracks", t.getTotal trackI == track.2),
   ("year", t.str "year" == some year), ("artwork", t.artwork == some art)]

/-- tests/test.rs:100-130 -/
def assertTag1 (png : Bytes) (t : Tag) : List (String × Bool) :=
  common t "TEST" "Lavf58.29.100" "2013" .explicit .normal 132 (some 1, some 2) (some 7, some 13) ⟨.png, png⟩ ++
  [("artist", t.str "artist" == some "TEST ARTIST"), ("genre", genreOf t == some "Hard Rock"),
   ("lyricist", t.str "lyricist" == some "TEST LYRICIST")]

/-- tests/test.rs:132-162 -/
def assertTag2 (t : Tag) : List (String × Bool) :=
  common t "NEW" "Lavf58.12.100" "1998" .inoffensive .audioBook 98 (some 2, none) (some 3, some 7) ⟨.jpeg, artwork2⟩ ++
  [("artist", t.str "artist" == some "NEW ARTIST"), ("genre", genreOf t == some "Hard Rock"),
   ("lyricist", t.str "lyricist" == some "NEW LYRICIST")]

/-- tests/test.rs:164-216 -/
def assertTag3 (png : Bytes) (t : Tag) : List (String × Bool) :=
  common t "TEST" "Lavf58.29.100" "2013" .explicit .normal 132 (some 1, some 2) (some 7, some 13) ⟨.png, png⟩ ++
  [("artists", t.strs "artist" == ["ARTIST 1", "ARTIST 2", "ARTIST 3"]),
   ("genres", t.genres.map String.ofList == ["GENRE 1", "GENRE 2", "GENRE 3", "GENRE 4"]),
   ("lyricists", t.strs "lyricist" == ["LYRICIST 1", "LYRICIST 2", "LYRICIST 3", "LYRICIST 4", "LYRICIST 5"])]

/-- tests/test.rs:218-225 -/
def assertReadonly (t : Tag) : List (String × Bool) :=
  [("duration", t.duration == some 486000000), ("filetype", String.ofList t.filetype == "M4A \x00\x00\x02\x00isomiso2"),
   ("channel_config", t.channelConfig == some .mono), ("sample_rate", t.sampleRate == some .hz44100),
   ("avg_bitrate", t.avgBitrate == some 64776), ("max_bitrate", t.maxBitrate == some 69000)]

def readT (F : Bytes) : Tag × List (String × Bool) :=
  match readTag env F 0 with
  | .ok t => (t, [("read", true)])
  | _ => ({}, [("read", false)])

def writeT (F : Bytes) (t : Tag) : Bytes × List (String × Bool) :=
  match writeTag env F 0 t with
  | (.ok (), F') => (F', [("write", true)])
  | (_, F') => (F', [("write", false)])

/-- tests/test.rs:238-275 -/
def sampleFile (png F : Bytes) : List (String × Bool) :=
  let (t, r0) := readT F
  let (F1, r1) := writeT F {}
  let (t1, r2) := readT F1
  let (F2, r3) := writeT F1 (tag1 png)
  let (t2, r4) := readT F2
  let (F3, r5) := writeT F2 tag2
  let (t3, r6) := readT F3
  r0 ++ r1 ++ r2 ++ [("empty", t1.isEmpty), ("info 1", t1.audioInfo == t.audioInfo)] ++ r3 ++ r4 ++ assertTag1 png t2 ++
    [("info 2", t2.audioInfo == t.audioInfo)] ++ r5 ++ r6 ++ assertTag2 t3 ++ [("info 3", t3.audioInfo == t.audioInfo)]

/-- tests/test.rs:295-365, the part after copying the file -/
def writeCase (F : Bytes) (t : Tag) (assert : Tag → List (String × Bool)) : List (String × Bool) :=
  let (F1, r1) := writeT F t
  let (t1, r2) := readT F1
  r1 ++ r2 ++ assert t1 ++ assertReadonly t1

/-- tests/test.rs:367-391 -/
def dumpCase (t : Tag) (assert : Tag → List (String × Bool)) : List (String × Bool) :=
  let (F, r) := dumpTag env t
  let (t1, r2) := readT F
  [("dump", match r with | .ok _ => true | _ => false)] ++ r2 ++ assert t1

/-- tests/test.rs:393-429 -/
def multipleValues : List (String × Bool) :=
  let t : Tag := (((({} : Tag).addStr "artist" "1").addStr "artist" "2").addStr "artist" "3").addStr "artist" "4"
  let t1 := t.withStr "artist" "5"
  let t2 := (t1.addStr "artist" "6").addStr "artist" "7"
  let t3 := t2.removeValue (macroIdent! "artist")
  [("add", t.strs "artist" == ["1", "2", "3", "4"]), ("first", t.str "artist" == some "1"), ("set", t1.strs "artist" == ["5"]),
   ("set, add", t2.strs "artist" == ["5", "6", "7"]), ("remove", t3.strs "artist" == [] && t3.str "artist" == none)]

/-- tests/test.rs:431-485 -/
def genreHandling : List (String × Bool) :=
  let custom (t : Tag) := (t.getStrings customGenreI).map String.ofList
  let all (t : Tag) := t.genres.map String.ofList
  let name (n : Nat) := (stdGenreName n).map String.ofList
  let t : Tag := {}
  let t1 := t.setGenre ((stdGenreName 39).getD [])
  let t2 := t1.setGenre "CUSTOM GENRE".toList
  let t3 := t2.removeGenres
  let t4 := (((t3.addString customGenreI "GENRE 1".toList).addStandardGenre 7).addString customGenreI "GENRE 2".toList).addStandardGenre 24
  let t5 := t4.removeStandardGenres
  let t6 := t5.removeValue customGenreI
  [("none", genreOf t == none && t.standardGenre == none && custom t == []),
   ("standard name", genreOf t1 == name 39 && t1.standardGenre == none && custom t1 == (name 39).toList),
   ("custom", genreOf t2 == some "CUSTOM GENRE" && t2.standardGenre == none), ("removed", all t3 == []),
   ("all", (all t4).map some == [name 7, name 24, some "GENRE 1", some "GENRE 2"]), ("codes", t4.standardGenres == [7, 24]),
   ("customs", custom t4 == ["GENRE 1", "GENRE 2"]), ("standard removed", t5.standardGenres == [] && (all t5).head? == some "GENRE 1"),
   ("custom removed", custom t6 == [] && all t6 == [])]

/-- tests/test.rs:487-535 -/
def trackDisc : List (String × Bool) :=
  [("track", trackI, 4, 16), ("disc", discI, 2, 3)].flatMap fun (x, i, n, m) =>
    let t : Tag := {}
    let t1 := (t.setNumber i n).setTotal i m
    let t2 := t1.removeNumber i
    let t3 := t2.removeTotal i
    [(x, t.getPair i == (none, none) && t1.getPair i == (some n, some m) && t1.getNumber i == some n && t1.getTotal i == some m &&
      t2.getPair i == (none, some m) && t3.getPair i == (none, none))]

/-- tests/test.rs:537-562 -/
def workMovement : List (String × Bool) :=
  let values (t : Tag) := (t.str "movement", t.getInt (macroIdent! "movement_count") 2, t.getInt (macroIdent! "movement_index") 2,
    t.flag "show_movement", t.str "work")
  let t : Tag := {}
  let t1 := (((t.withStr "movement" "TEST MOVEMENT").setInt (macroIdent! "movement_count") 2 8).setInt
    (macroIdent! "movement_index") 2 1).withFlag "show_movement" |>.withStr "work" "TEST WORK"
  [("none", values t == (none, none, none, false, none)),
   ("all", values t1 == (some "TEST MOVEMENT", some 8, some 1, true, some "TEST WORK"))]

/-- tests/test.rs:564-620 -/
def destructuring : List (String × Bool) :=
  let vis := ["album", "album_artist", "artist", "category", "comment", "composer", "copyright", "description", "encoder",
    "grouping", "keyword", "lyrics", "title", "year"]
  let value (vi : String) := if vi == "encoder" then "Lavf58.29.100" else if vi == "year" then "2013" else
    "TEST " ++ vi.toUpper.replace "_" " "
  let img : Img := ⟨.png, "TEST ARTWORK".toUTF8.toList⟩
  let t := ((vis.foldl (fun (t : Tag) vi => t.withStr vi (value vi)) ({} : Tag)).setGenre "TEST GENRE".toList).setArtwork img
  let (t, r) := vis.foldl (fun ((t, r) : Tag × List (String × Bool)) vi =>
    let (s, t) := t.takeString (macroIdent! vi)
    (t, r ++ [(s!"take_{vi}", s.map String.ofList == some (value vi))])) (t, [])
  let (g, t) := t.takeGenre
  let (a, t) := t.takeArtwork
  r ++ [("take_genre", g.map String.ofList == some "TEST GENRE"), ("take_artwork", a == some img)] ++
    vis.map (fun vi => (vi, t.str vi == none)) ++ [("genre", genreOf t == none), ("artwork", t.artwork == none)]

/-- src/atom/data.rs:547-563 -/
def integers : List (String × Bool) :=
  [("be_int", beInt [0, 0, 0, 0, 0x2D, 0x34, 0xD0, 0x5E] 4 4 == some 758435934),
   ("set_be_int", (setBeInt [0, 0, 0, 0, 0, 0, 0, 0] 4 524 2)[4]? == some 2 && (setBeInt [0, 0, 0, 0, 0, 0, 0, 0] 4 524 2)[5]? == some 12)]

/-- The examples in the documentation of src/tag/mod.rs:319-1354. Each is named after its first line. -/
def examples : List (String × Bool) :=
  let test : Ident := .fourcc (cc 't' 'e' 's' 't')
  let id : DataIdent := .fourcc (cc 't' 'e' 's' 't')
  let tst1 : Ident := .fourcc (cc 't' 's' 't' '1')
  let tst2 : Ident := .fourcc (cc 't' 's' 't' '2')
  let id1 : DataIdent := .fourcc (cc 't' 's' 't' '1')
  let b (s : String) : Bytes := s.toUTF8.toList
  let u (s : String) : Data := .utf8 s.toList
  let str (l : List Str) := l.map String.ofList
  let str2 (l : List (DataIdent × Str)) := l.map fun x => (x.1, String.ofList x.2)
  let one (d : Data) : Tag := ({} : Tag).setData test d
  let add (l : List Data) : Tag := l.foldl (fun t d => t.addData test d) {}
  -- the modification of the first value that an iterator over mutable references yields
  let first {α} (f : α → α) : Nat → α → α := fun n x => if n == 0 then f x else x
  let push (v : Bytes) : Bytes := v ++ b "1"
  let pushS (s : Str) : Str := s ++ ['1']
  let pushD : Data → Data | .utf8 s => .utf8 (pushS s) | d => d
  let both (l : List (Ident × Data)) : Tag := l.foldl (fun t x => t.addData x.1 x.2) {}
  let vals (t : Tag) := t.dataAll.map (·.2)
  [("319", (one (.beSigned (b "data"))).bytesOf test == [b "data"]),
   ("335", ((one (.reserved (b "data"))).bytesMutOf test (first push)).bytesOf test == [b "data1"]),
   ("355", ((one (.reserved (b "data"))).takeBytesOf test).1 == [b "data"] &&
     ((one (.reserved (b "data"))).takeBytesOf test).2.bytesOf test == []),
   ("375", str ((one (u "data")).stringsOf test) == ["data"]),
   ("391", str (((one (u "string")).stringsMutOf test (first pushS)).stringsOf test) == ["string1"]),
   ("411", str ((one (u "string")).takeStringsOf test).1 == ["string"] && ((one (u "string")).takeStringsOf test).2.stringsOf test == []),
   ("431", ((one (.jpeg (b "image"))).imagesOf test).map (·.data) == [b "image"]),
   ("448", (((one (.jpeg (b "image"))).imagesMutOf test (first push)).imagesOf test).map (·.data) == [b "image1"]),
   ("471", ((one (.png (b "image"))).takeImagesOf test).1 == [⟨.png, b "image"⟩] &&
     ((one (.png (b "image"))).takeImagesOf test).2.imagesOf test == []),
   ("488", ((one (u "data")).dataOf test).map (·.string?) == [some "data".toList]),
   ("507", str (((one (u "data")).dataMutOf test (first pushD)).stringsOf test) == ["data1"]),
   ("528", ((one (u "data")).takeDataOf test).1 == [u "data"] && ((one (u "data")).takeDataOf test).2.dataOf test == []),
   ("555", (add [.reserved (b "data1"), u "string", .beSigned (b "data2")]).bytesAll == [(id, b "data1"), (id, b "data2")]),
   ("578", ((add [.reserved (b "data"), u "string"]).bytesMut fun _ => first push).bytesAll == [(id, b "data1")]),
   ("602", (add [.reserved (b "data"), u "string"]).takeBytes.head? == some (id, b "data")),
   ("624", str2 (add [u "string1", .reserved (b "data"), .utf16 "string2".toList]).stringsAll == [(id, "string1"), (id, "string2")]),
   ("647", str2 ((add [.reserved (b "data"), u "string"]).stringsMut fun _ _ => pushS).stringsAll == [(id, "string1")]),
   ("671", str2 ((add [.reserved (b "data"), u "string"]).takeStrings) == [(id, "string")]),
   ("693", (add [.png (b "image1"), u "string", .jpeg (b "image2")]).imagesAll == [(id, ⟨.png, b "image1"⟩), (id, ⟨.jpeg, b "image2"⟩)]),
   ("716", ((add [.bmp (b "data"), u "string"]).imagesMut fun _ => first push).imagesAll == [(id, ⟨.bmp, b "data1"⟩)]),
   ("740", (add [.jpeg (b "data"), u "string"]).takeImages.head? == some (id, ⟨.jpeg, b "data"⟩)),
   ("762", (add [.reserved (b "data"), u "string", .png (b "image")]).dataAll ==
     [(id, .reserved (b "data")), (id, u "string"), (id, .png (b "image"))]),
   ("786", str2 ((add [u "string"]).dataMut fun _ => first pushD).stringsAll == [(id, "string1")]),
   ("813", (add [.jpeg (b "data")]).takeData.head? == some (id, .jpeg (b "data"))),
   ("838", (add [u "string", .beSigned (b "data")]).dataOf test == [u "string", .beSigned (b "data")]),
   ("853", ((add [u "string", .beSigned (b "data")]).removeBytesOf test).dataOf test == [u "string"]),
   ("867", (add [u "string", .bmp (b "image")]).dataOf test == [u "string", .bmp (b "image")]),
   ("882", ((add [u "string", .bmp (b "image")]).removeStringsOf test).dataOf test == [.bmp (b "image")]),
   ("911", ((add [u "string", .bmp (b "image")]).removeImagesOf test).dataOf test == [u "string"]),
   ("925", (one (u "data")).dataOf test != [] && ((one (u "data")).removeDataOf test).dataOf test == []),
   ("944", (add [.beSigned (List.replicate 12 4), .reserved (List.replicate 16 6)]).bytesOf test == [List.replicate 12 4, List.replicate 16 6]),
   ("958", ((add [.beSigned (List.replicate 12 4), .reserved (List.replicate 16 6)]).retainBytesOf test
     fun v => (v.drop 2).take 2 == [4, 4]).bytesOf test == [List.replicate 12 4]),
   ("973", str ((add [u "string1", u "string2"]).stringsOf test) == ["string1", "string2"]),
   ("987", str (((add [u "string1", u "string2"]).retainStringsOf test fun s => s.getLast? == some '1').stringsOf test) == ["string1"]),
   ("1002", (add [.png (List.replicate 4 5), .jpeg (List.replicate 16 6)]).imagesOf test ==
     [⟨.png, List.replicate 4 5⟩, ⟨.jpeg, List.replicate 16 6⟩]),
   ("1016", ((add [.png (List.replicate 4 5), .jpeg (List.replicate 16 6)]).retainImagesOf test fun i => i.fmt == .jpeg).imagesOf test ==
     [⟨.jpeg, List.replicate 16 6⟩]),
   ("1031", (add [u "short", .reserved (List.replicate 16 6)]).dataOf test == [u "short", .reserved (List.replicate 16 6)]),
   ("1045", ((add [u "short", .reserved (List.replicate 16 6)]).retainDataOf test fun d => d.len < 10).dataOf test == [u "short"]),
   ("1066", vals (both [(tst1, .reserved (b "data1")), (tst2, .png (b "data2")), (tst2, .beSigned (b "data3"))]) ==
     [.reserved (b "data1"), .png (b "data2"), .beSigned (b "data3")]),
   ("1084", vals ((both [(tst1, .reserved (b "data1")), (tst2, .png (b "data2")), (tst2, .beSigned (b "data3"))]).retainBytes
     fun i _ => i == id1) == [.reserved (b "data1"), .png (b "data2")]),
   ("1098", vals (both [(tst1, u "data1"), (tst2, .png (b "data2")), (tst2, u "data3")]) == [u "data1", .png (b "data2"), u "data3"]),
   ("1116", vals ((both [(tst1, u "data1"), (tst2, .png (b "data2")), (tst2, u "data3")]).retainStrings fun i _ => i == id1) ==
     [u "data1", .png (b "data2")]),
   ("1130", vals (both [(tst1, .jpeg (b "data1")), (tst2, .png (b "data2")), (tst2, u "data3")]) ==
     [.jpeg (b "data1"), .png (b "data2"), u "data3"]),
   ("1148", vals ((both [(tst1, .jpeg (b "data1")), (tst2, .png (b "data2")), (tst2, u "data3")]).retainImages fun i _ => i == id1) ==
     [.jpeg (b "data1"), u "data3"]),
   ("1162", vals (both [(tst1, u "data1"), (tst2, u "data2")]) == [u "data1", u "data2"]),
   ("1177", vals ((both [(tst1, u "data1"), (tst2, u "data2")]).retainData fun i _ => i != id1) == [u "data2"]),
   ("1208", ({} : Tag).isEmpty && !(one (u "data")).isEmpty && (one (u "data")).clear.isEmpty),
   ("1227", str ((one (u "data")).stringsOf test) == ["data"]),
   ("1250", str ((({} : Tag).setAllData test [u "data1", u "data2"]).stringsOf test) == ["data1", "data2"]),
   ("1287", str ((add [u "data1", u "data2"]).stringsOf test) == ["data1", "data2"]),
   ("1312", str ((({} : Tag).addAllData test [u "data1", u "data2"]).stringsOf test) == ["data1", "data2"])]

def report (name : String) (l : List (String × Bool)) : IO Bool := do
  let bad := l.filter fun x => !x.2
  IO.println s!"{name}: {l.length} assertions, {bad.length} fail {bad.map (·.1)}"
  return bad.isEmpty

def run (dir : String) : IO Bool := do
  let load (n : String) : IO Bytes := do return (← IO.FS.readBinFile (dir ++ "/" ++ n)).toList
  let png ← load "artwork.png"
  let sample ← load "sample.m4a"
  let multi ← load "sample-multi-data.m4a"
  let mut ok := true
  let (t, r) := readT sample
  ok := (← report "read_sample" (r ++ assertTag1 png t ++ assertReadonly t)) && ok
  let (t, r) := readT multi
  ok := (← report "read_sample_multi_data" (r ++ assertTag3 png t ++ assertReadonly t)) && ok
  ok := (← report "write" (writeCase sample tag2 assertTag2)) && ok
  ok := (← report "write_same" (writeCase sample (tag1 png) (assertTag1 png))) && ok
  let big : Bytes := (List.range 2048).map fun n => UInt8.ofNat (n % 255)
  ok := (← report "write_bigger" (writeCase sample (tag2.addData (.fourcc (cc 't' 'e' 's' 't')) (.reserved big)) assertTag2)) && ok
  ok := (← report "write_empty" (writeCase sample {} fun t => [("empty", t.isEmpty)])) && ok
  ok := (← report "dump_1" (dumpCase (tag1 png) (assertTag1 png))) && ok
  ok := (← report "dump_2" (dumpCase tag2 assertTag2)) && ok
  ok := (← report "multiple_values" multipleValues) && ok
  ok := (← report "genre_handling" genreHandling) && ok
  ok := (← report "track_disc_handling" trackDisc) && ok
  ok := (← report "work_movement_handling" workMovement) && ok
  ok := (← report "tag_destructuring" destructuring) && ok
  ok := (← report "be_int, set_be_int" integers) && ok
  ok := (← report "documentation" examples) && ok
  for n in ["sample.m4a", "sample-multi-data.m4a", "sample-64.mp4", "sample-multi-track.3gp"] do
    ok := (← report s!"sample_files {n}" (sampleFile png (← load n))) && ok
  return ok

end Mp4.Conformance
