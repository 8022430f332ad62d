import Verif.Proof.Display
import Verif.Props.Accessors
/-
C63, C64, C65: the printed text of a tag.
-/
namespace Mp4.Props
open Mp4 Spec

/-- The printed text of a tag, as lines. -/
abbrev shown (esc : Char → Str) (t : Tag) : List Str := linesOf (t.display esc)

/-- An escape function for concrete cases: only what a line break and a quote need. -/
def escEx (c : Char) : Str := if c = '\n' then "\\n".toList else if c = '"' then "\\\"".toList else [c]

theorem escEx_nl (c : Char) : '\n' ∉ escEx c := by
  rw [escEx]
  split
  · decide
  · split
    · decide
    · next h _ => simpa using fun e => h (Eq.symm e)

/-- A tag for concrete cases. -/
def shownEx : Tag :=
  { ftyp := "M4A ".toList
    info := { duration := some 3723999999999, sampleRate := some .hz44100, avgBitrate := some 128000 }
    atoms := [
      ⟨.fourcc (cc '©' 'A' 'R' 'T'), [.utf8 "A".toList, .reserved [1], .utf16 "B: C".toList]⟩,
      ⟨.fourcc (cc '©' 'n' 'a' 'm'), [.utf8 "T".toList, .utf8 "U".toList]⟩,
      ⟨.fourcc (cc 't' 'r' 'k' 'n'), [.reserved [0, 0, 0, 3, 0, 12, 0, 0]]⟩,
      ⟨.fourcc (cc 'c' 'p' 'i' 'l'), [.beSigned [1]]⟩,
      ⟨.fourcc (cc 't' 'm' 'p' 'o'), [.beSigned [0, 120]]⟩,
      ⟨.fourcc (cc 'c' 'o' 'v' 'r'), [.png (List.replicate 2047 0)]⟩,
      ⟨.fourcc (cc 'p' 'u' 'r' 'd'), [.utf8 "2020".toList]⟩,
      ⟨.freeform "com.apple.iTunes".toList "ISRC".toList, [.utf8 "X\"1".toList, .beSigned [7, 255]]⟩] }

theorem shownEx_oneLine : OneLine shownEx :=
  { ftyp := by decide +kernel
    value := by
      have : ∀ a ∈ shownEx.atoms, ∀ d ∈ a.data, ∀ s ∈ d.string?, '\n' ∉ s := by decide +kernel
      intro a ha d hd s hs
      refine this a ha d hd s ?_
      rcases hs with rfl | rfl <;> rfl
    ident := by
      intro a ha m n h
      simp only [shownEx, List.mem_cons, List.not_mem_nil, or_false] at ha
      rcases ha with rfl | rfl | rfl | rfl | rfl | rfl | rfl | rfl <;> cases h
      exact ⟨by decide, by decide⟩ }

example : (shown escEx shownEx).map String.ofList = [
    "artists:", "    A", "    B: C", "title: T", "track: 3 of 12", "artwork: png 1k", "bpm: 120",
    "duration: 1:02:03", "sample rate: 44100Hz", "average bitrate: 125kbps", "compilation",
    "isrc: X\"1", "----:com.apple.iTunes:ISRC:", "    Data::Utf8(\"X\\\"1\")",
    "    Data::BeSigned([7, 255])", "filetype: M4A "] := by decide +kernel

/-! ### C63

Full statement: for every tag `t`, what a reader of the printed text finds for a field is what the
accessor of the field returns. It is false in two respects: a text containing a line break can imitate
other fields (`C63_refuted_linebreak`), and the genre is missing if the first standard genre is not a
known one, there is exactly one other and no custom one (`C63_refuted_genre`). The theorems below hold
for tags without line breaks; for genres the first standard genre has to be known. -/

/-- The identifier constant of an accessor is the documented one. -/
theorem macro_dataOf {vi : String} {j : DataIdent} (h : (macroIdent! vi).toData = j) (t : Tag) :
    t.dataOf (macroIdent! vi) = t.dataOf (.data j) := by
  have : (fun a : AtomData => (macroIdent! vi).matches a.ident) = fun a => (Ident.data j).matches a.ident := by
    funext a
    rw [Ident.matches_eq, Ident.matches_eq, h]; rfl
  simp only [Tag.dataOf, findAtom, this]

theorem macro_strings {vi : String} {j : DataIdent} (h : (macroIdent! vi).toData = j) (t : Tag) :
    t.stringsOf (macroIdent! vi) = t.stringsOf (.data j) := by
  rw [Tag.stringsOf, Tag.stringsOf, macro_dataOf h]

/-- **C63.** All texts of a field with any number of them are shown, in order, and nothing else. -/
theorem C63_lists_partial (esc : Char → Str) (he : ∀ c, '\n' ∉ esc c) (t : Tag) (ht : OneLine t) :
    ∀ x ∈ listFields, fieldValues x.2.1.toList x.2.2.toList (shown esc t) = t.stringsOf (.data x.1) := by
  have key : ∀ (vi : String) (j : DataIdent) (n ns : String), multiF t vi ∈ fields t →
      (macroIdent! vi).toData = j → valueName vi = n.toList → pluralName (valueName vi) = ns.toList →
      fieldValues n.toList ns.toList (shown esc t) = t.stringsOf (.data j) := by
    intro vi j n ns hf hi hn hns
    have := display_values he ht _ hf listField_unmark
    rw [show (multiF t vi).body.values = _ from listField_values fun _ => rfl] at this
    rw [← macro_strings hi, ← hns, ← hn]
    exact this
  intro x hx
  simp only [listFields, List.mem_cons, List.not_mem_nil, or_false] at hx
  rcases hx with rfl | rfl | rfl | rfl | rfl | rfl | rfl | rfl | rfl
  · exact key "album_artist" _ _ _ (by simp [fields]) (by decide) (by decide) (by decide)
  · exact key "artist" _ _ _ (by simp [fields]) (by decide) (by decide) (by decide)
  · exact key "composer" _ _ _ (by simp [fields]) (by decide) (by decide) (by decide)
  · exact key "lyricist" _ _ _ (by simp [fields]) (by decide) (by decide) (by decide)
  · exact key "grouping" _ _ _ (by simp [fields]) (by decide) (by decide) (by decide)
  · exact key "description" _ _ _ (by simp [fields]) (by decide) (by decide) (by decide)
  · exact key "comment" _ _ _ (by simp [fields]) (by decide) (by decide) (by decide)
  · exact key "category" _ _ _ (by simp [fields]) (by decide) (by decide) (by decide)
  · exact key "keyword" _ _ _ (by simp [fields]) (by decide) (by decide) (by decide)

example : fieldValues "artist".toList "artists".toList (shown escEx shownEx) = ["A".toList, "B: C".toList] :=
  (C63_lists_partial escEx escEx_nl shownEx shownEx_oneLine
    (.fourcc (cc '©' 'A' 'R' 'T'), "artist", "artists") (by simp [listFields])).trans (by decide +kernel)

/-- **C63.** The (first) text of a field with one text is shown if there is one, and nothing otherwise. -/
theorem C63_texts_partial (esc : Char → Str) (he : ∀ c, '\n' ∉ esc c) (t : Tag) (ht : OneLine t) :
    ∀ x ∈ textFields, fieldValues x.2.toList x.2.toList (shown esc t) = (t.stringsOf (.data x.1)).head?.toList := by
  have key : ∀ (vi : String) (j : DataIdent) (n : String), singleF t vi ∈ fields t →
      (macroIdent! vi).toData = j → valueName vi = n.toList →
      fieldValues n.toList n.toList (shown esc t) = (t.stringsOf (.data j)).head?.toList := by
    intro vi j n hf hi hn
    have := display_values he ht _ hf (optField_unmark _ _)
    rw [show (singleF t vi).body.values = _ from optField_values _ _] at this
    rw [← macro_strings hi, ← hn]
    exact this
  intro x hx
  simp only [textFields, List.mem_cons, List.not_mem_nil, or_false] at hx
  rcases hx with rfl | rfl | rfl | rfl | rfl | rfl | rfl | rfl | rfl | rfl | rfl | rfl
  · exact key "album" _ _ (by simp [fields]) (by decide) (by decide)
  · exact key "title" _ _ (by simp [fields]) (by decide) (by decide)
  · exact key "year" _ _ (by simp [fields]) (by decide) (by decide)
  · exact key "copyright" _ _ (by simp [fields]) (by decide) (by decide)
  · exact key "encoder" _ _ (by simp [fields]) (by decide) (by decide)
  · exact key "tv_show_name" _ _ (by simp [fields]) (by decide) (by decide)
  · exact key "tv_network_name" _ _ (by simp [fields]) (by decide) (by decide)
  · exact key "tv_episode_name" _ _ (by simp [fields]) (by decide) (by decide)
  · exact key "movement" _ _ (by simp [fields]) (by decide) (by decide)
  · exact key "work" _ _ (by simp [fields]) (by decide) (by decide)
  · exact key "isrc" _ _ (by simp [fields]) (by decide) (by decide)
  · exact key "lyrics" _ _ (by simp [fields]) (by decide) (by decide)

example : fieldValues "title".toList "title".toList (shown escEx shownEx) = ["T".toList]
    ∧ fieldValues "album".toList "album".toList (shown escEx shownEx) = [] :=
  ⟨(C63_texts_partial escEx escEx_nl shownEx shownEx_oneLine (.fourcc (cc '©' 'n' 'a' 'm'), "title") (by simp [textFields])).trans
      (by decide +kernel),
   (C63_texts_partial escEx escEx_nl shownEx shownEx_oneLine (.fourcc (cc '©' 'a' 'l' 'b'), "album") (by simp [textFields])).trans
      (by decide +kernel)⟩

/-- **C63.** The numbers are shown in decimal. -/
theorem C63_numbers_partial (esc : Char → Str) (he : ∀ c, '\n' ∉ esc c) (t : Tag) (ht : OneLine t) :
    ∀ x ∈ numberFields, (fieldValues x.2.2.toList x.2.2.toList (shown esc t)).map readNat
      = (t.getInt (.data x.1) x.2.1).toList.map some := by
  have key : ∀ (vi : String) (j : DataIdent) (k : Nat) (n : String), intF t vi k ∈ fields t →
      (macroIdent! vi).toData = j → valueName vi = n.toList →
      (fieldValues n.toList n.toList (shown esc t)).map readNat = (t.getInt (.data j) k).toList.map some := by
    intro vi j k n hf hi hn
    have := display_values he ht _ hf (optField_unmark _ _)
    rw [show (intF t vi k).body.values = _ from optField_values _ _] at this
    have e : t.getInt (macroIdent! vi) k = t.getInt (.data j) k := by
      simp only [Tag.getInt, Tag.bytesOf, macro_dataOf hi]
    rw [← hn, ← e]
    rw [show fieldValues (valueName vi) (valueName vi) (shown esc t) = _ from this]
    cases t.getInt (macroIdent! vi) k with
    | none => rfl
    | some v => simp [readNat_decimal]
  intro x hx
  simp only [numberFields, List.mem_cons, List.not_mem_nil, or_false] at hx
  rcases hx with rfl | rfl | rfl | rfl | rfl
  · exact key "tv_episode" _ _ _ (by simp [fields]) (by decide) (by decide)
  · exact key "tv_season" _ _ _ (by simp [fields]) (by decide) (by decide)
  · exact key "bpm" _ _ _ (by simp [fields]) (by decide) (by decide)
  · exact key "movement_count" _ _ _ (by simp [fields]) (by decide) (by decide)
  · exact key "movement_index" _ _ _ (by simp [fields]) (by decide) (by decide)

example : (fieldValues "bpm".toList "bpm".toList (shown escEx shownEx)).map readNat = [some 120] :=
  (C63_numbers_partial escEx escEx_nl shownEx shownEx_oneLine (.fourcc (cc 't' 'm' 'p' 'o'), 2, "bpm") (by simp [numberFields])).trans
    (by decide +kernel)

/-- **C63.** A flag is shown, by its name on a line of its own, exactly if it is set. -/
theorem C63_flags_partial (esc : Char → Str) (he : ∀ c, '\n' ∉ esc c) (t : Tag) (ht : OneLine t) :
    ∀ x ∈ flagFields, (x.2.toList ∈ shown esc t ↔ t.getFlag (.data x.1) = true) := by
  have key : ∀ (vi : String) (j : DataIdent) (n : String), flagF t vi ∈ fields t →
      (macroIdent! vi).toData = j → valueName vi = n.toList →
      (n.toList ∈ shown esc t ↔ t.getFlag (.data j) = true) := by
    intro vi j n hf hi hn
    have e : t.getFlag (macroIdent! vi) = t.getFlag (.data j) := by
      simp only [Tag.getFlag, Tag.bytesOf, macro_dataOf hi]
    have := display_mark he ht _ hf (by
      show (if t.getFlag (macroIdent! vi) then Body.mark else .absent) = .mark ∨
        (if t.getFlag (macroIdent! vi) then Body.mark else .absent) = .absent
      cases t.getFlag (macroIdent! vi)
      · exact .inr rfl
      · exact .inl rfl)
    rw [← hn, ← e]
    refine Iff.trans this ?_
    show (if t.getFlag (macroIdent! vi) then Body.mark else .absent) = .mark ↔ _
    cases t.getFlag (macroIdent! vi)
    · exact ⟨(nomatch ·), (nomatch ·)⟩
    · exact ⟨fun _ => rfl, fun _ => rfl⟩
  intro x hx
  simp only [flagFields, List.mem_cons, List.not_mem_nil, or_false] at hx
  rcases hx with rfl | rfl | rfl
  · exact key "show_movement" _ _ (by simp [fields]) (by decide) (by decide)
  · exact key "gapless_playback" _ _ (by simp [fields]) (by decide) (by decide)
  · exact key "compilation" _ _ (by simp [fields]) (by decide) (by decide)

example : "compilation".toList ∈ shown escEx shownEx ∧ "gapless playback".toList ∉ shown escEx shownEx :=
  ⟨(C63_flags_partial escEx escEx_nl shownEx shownEx_oneLine (.fourcc (cc 'c' 'p' 'i' 'l'), "compilation") (by simp [flagFields])).mpr
      (by decide +kernel),
   fun h => absurd ((C63_flags_partial escEx escEx_nl shownEx shownEx_oneLine (.fourcc (cc 'p' 'g' 'a' 'p'), "gapless playback")
      (by simp [flagFields])).mp h) (by decide +kernel)⟩

/-- **C63.** Track and disc are shown as the number and the total that are present. -/
theorem C63_pairs_partial (esc : Char → Str) (he : ∀ c, '\n' ∉ esc c) (t : Tag) (ht : OneLine t) :
    (fieldValues "track".toList "track".toList (shown esc t)).map readPair
      = (if t.getPair trackI = (none, none) then [] else [some (t.getPair trackI)]) ∧
    (fieldValues "disc".toList "disc".toList (shown esc t)).map readPair
      = (if t.getPair discI = (none, none) then [] else [some (t.getPair discI)]) := by
  have key : ∀ p : Option Nat × Option Nat, (pairText p).toList.map readPair =
      (if p = (none, none) then [] else [some p]) := by
    intro p
    cases h : pairText p with
    | none => obtain ⟨_ | d, _ | n⟩ := p <;> first | rfl | cases h
    | some s =>
      have hp : p ≠ (none, none) := by rintro rfl; cases h
      rw [if_neg hp]
      simp [readPair_text p s h]
  refine ⟨?_, ?_⟩
  · have := display_values he ht (optField "track".toList (pairText (t.getPair trackI))) (by simp [fields])
      (optField_unmark _ _)
    rw [optField_values] at this
    rw [show fieldValues "track".toList "track".toList (shown esc t) = _ from this, key]
  · have := display_values he ht (optField "disc".toList (pairText (t.getPair discI))) (by simp [fields])
      (optField_unmark _ _)
    rw [optField_values] at this
    rw [show fieldValues "disc".toList "disc".toList (shown esc t) = _ from this, key]

example : (fieldValues "track".toList "track".toList (shown escEx shownEx)).map readPair = [some (some 3, some 12)] :=
  (C63_pairs_partial escEx escEx_nl shownEx shownEx_oneLine).1.trans (by decide +kernel)

/-- **C63.** All genres are shown, in order, if there are several or the first standard genre is known. -/
theorem C63_genres_partial (esc : Char → Str) (he : ∀ c, '\n' ∉ esc c) (t : Tag) (ht : OneLine t)
    (h : 2 ≤ t.genres.length ∨ t.standardGenres.filterMap stdGenreName = [] ∨
      ∃ c r, t.standardGenres = c :: r ∧ 1 ≤ c ∧ c ≤ 80) :
    fieldValues "genre".toList "genres".toList (shown esc t) = t.genres := by
  have := display_values he ht (listField "genre".toList "genres".toList t.genres t.genre) (by simp [fields])
    listField_unmark
  rw [listField_values] at this
  · exact this
  · intro hl
    exact C22_genre_first_partial t (h.resolve_left (by omega))

/-- **C63 is false for genres.** One genre, and it is not shown. -/
theorem C63_refuted_genre (esc : Char → Str) (he : ∀ c, '\n' ∉ esc c) : ∃ t : Tag, OneLine t ∧
    t.genres = ["Blues".toList] ∧ fieldValues "genre".toList "genres".toList (shown esc t) = [] := by
  have ht : OneLine (({} : Tag).setStandardGenres [0, 1]) :=
    { ftyp := by decide
      value := by
        intro a ha d hd s hs
        have : ∀ a ∈ (({} : Tag).setStandardGenres [0, 1]).atoms, ∀ d ∈ a.data, d.string? = none := by decide
        have := this a ha d hd
        rcases hs with rfl | rfl <;> cases this
      ident := by
        intro a ha m n h
        have : ∀ a ∈ (({} : Tag).setStandardGenres [0, 1]).atoms, a.ident = .fourcc STANDARD_GENRE := by decide
        rw [this a ha] at h; cases h }
  refine ⟨_, ht, by decide, ?_⟩
  have := display_values he ht (listField "genre".toList "genres".toList _ _)
    (by simp only [fields, List.mem_cons]; exact .inr (.inr (.inr (.inr (.inr (.inr (.inl rfl)))))))
    listField_unmark
  exact this

/-- **C63.** Media type, advisory rating, channel configuration and sample rate are shown by name. -/
theorem C63_names_partial (esc : Char → Str) (he : ∀ c, '\n' ∉ esc c) (t : Tag) (ht : OneLine t) :
    fieldValues "media type".toList "media type".toList (shown esc t) = (t.mediaType.map fun
      | .movie => "Movie".toList | .normal => "Normal".toList | .audioBook => "Audiobook".toList
      | .whackedBookmark => "Whacked Bookmark".toList | .musicVideo => "Music Video".toList
      | .shortFilm => "Short Film".toList | .tvShow => "TV-Show".toList | .booklet => "Booklet".toList).toList ∧
    fieldValues "advisory rating".toList "advisory rating".toList (shown esc t) = (t.advisoryRating.map fun
      | .clean => "Clean".toList | .inoffensive => "Inoffensive".toList | .explicit => "Explicit".toList).toList ∧
    fieldValues "channel config".toList "channel config".toList (shown esc t) = (t.channelConfig.map fun
      | .mono => "Mono".toList | .stereo => "Stereo".toList | .three => "3.0".toList | .four => "4.0".toList
      | .five => "5.0".toList | .fiveOne => "5.1".toList | .sevenOne => "7.1".toList).toList ∧
    (fieldValues "sample rate".toList "sample rate".toList (shown esc t)).map (fun s =>
      (stripEnd "Hz".toList s).bind readNat) = (t.sampleRate.map SampleRate.hz).toList.map some := by
  have key : ∀ (n : Str) (v : Option Str), optField n v ∈ fields t →
      fieldValues n n (shown esc t) = v.toList := by
    intro n v hf
    have := display_values he ht _ hf (optField_unmark _ _)
    rw [optField_values] at this
    exact this
  refine ⟨?_, ?_, ?_, ?_⟩
  · rw [key "media type".toList (t.mediaType.map MediaType.display) (by simp [fields])]
    cases t.mediaType with
    | none => rfl
    | some m => cases m <;> rfl
  · rw [key "advisory rating".toList (t.advisoryRating.map AdvisoryRating.display) (by simp [fields])]
    cases t.advisoryRating with
    | none => rfl
    | some m => cases m <;> rfl
  · rw [key "channel config".toList (t.channelConfig.map ChannelConfig.display) (by simp [fields])]
    cases t.channelConfig with
    | none => rfl
    | some m => cases m <;> rfl
  · rw [key "sample rate".toList (t.sampleRate.map SampleRate.display) (by simp [fields])]
    cases t.sampleRate with
    | none => rfl
    | some m => simp only [Option.map_some, Option.toList_some, List.map_cons, List.map_nil, SampleRate.display,
        stripEnd_append, Option.bind_some, readNat_decimal]

/-- **C63.** The names tell the values apart. -/
theorem C63_names_injective :
    (∀ a b : MediaType, a.display = b.display → a = b) ∧
    (∀ a b : AdvisoryRating, a.display = b.display → a = b) ∧
    (∀ a b : ChannelConfig, a.display = b.display → a = b) ∧
    (∀ a b : SampleRate, a.display = b.display → a = b) := by
  refine ⟨fun a b => ?_, fun a b => ?_, fun a b => ?_, fun a b h => ?_⟩
  · cases a <;> cases b <;> decide
  · cases a <;> cases b <;> decide
  · cases a <;> cases b <;> decide
  · have := decimal_injective (List.append_inj_left' h rfl)
    revert this
    cases a <;> cases b <;> decide

/-- **C63.** The file type is shown on the last line. -/
theorem C63_filetype_partial (esc : Char → Str) (he : ∀ c, '\n' ∉ esc c) (t : Tag) (ht : OneLine t) :
    (shown esc t).getLast? = some ("filetype: ".toList ++ t.ftyp) := by
  rw [shown, display_linesOf he ht, displayLines, ← List.append_assoc]
  simp only [List.getLast?_append, List.getLast?_singleton]
  rfl

/-- **C63.** Every freeform entry is shown by its identifier and one indented line per value, in order
(the ISRC and the lyricists are shown there as well). -/
theorem C63_freeform_partial (esc : Char → Str) (he : ∀ c, '\n' ∉ esc c) (t : Tag) (ht : OneLine t)
    (k : Nat) (mean name : Str) (ds : List Data) (hk : t.atoms[k]? = some ⟨.freeform mean name, ds⟩) :
    (("----:".toList ++ mean ++ ":".toList ++ name ++ ":".toList) :: ds.map fun d => "    ".toList ++ d.debug esc)
      <:+: shown esc t := by
  rw [shown, display_linesOf he ht, displayLines]
  obtain ⟨hlt, hg⟩ := List.getElem?_eq_some_iff.mp hk
  have ha : t.atoms = t.atoms.take k ++ ⟨.freeform mean name, ds⟩ :: t.atoms.drop (k + 1) := by
    rw [← hg, List.getElem_cons_drop, List.take_append_drop]
  refine ⟨(fields t).flatMap Field.lines ++ freeformLines esc { t with atoms := t.atoms.take k },
    freeformLines esc { t with atoms := t.atoms.drop (k + 1) } ++ ["filetype: ".toList ++ t.filetype], ?_⟩
  have hf : freeformLines esc t = freeformLines esc { t with atoms := t.atoms.take k } ++
      ((("----:".toList ++ mean ++ ":".toList ++ name ++ ":".toList) :: ds.map fun d => "    ".toList ++ d.debug esc) ++
        freeformLines esc { t with atoms := t.atoms.drop (k + 1) }) := by
    conv => lhs; rw [freeformLines, ha]
    rw [List.flatMap_append, List.flatMap_cons]
    rfl
  rw [hf]
  simp only [List.append_assoc]

example : ["----:com.apple.iTunes:ISRC:".toList, "    Data::Utf8(\"X\\\"1\")".toList,
    "    Data::BeSigned([7, 255])".toList] <:+: shown escEx shownEx := by
  have := C63_freeform_partial escEx escEx_nl shownEx shownEx_oneLine 7 _ _ _ rfl
  refine Eq.subst (motive := fun l => l <:+: shown escEx shownEx) ?_ this
  decide +kernel

/-- The names of the kinds of values, as they are shown. -/
def kindShown : Data → String
  | .reserved _ => "Reserved" | .utf8 _ => "Utf8" | .utf16 _ => "Utf16" | .jpeg _ => "Jpeg" | .png _ => "Png"
  | .beSigned _ => "BeSigned" | .bmp _ => "Bmp"

/-- The values of freeform entries up to what is shown of them: of images, only the kind. -/
def SameShown : Data → Data → Prop
  | .jpeg _, .jpeg _ | .png _, .png _ | .bmp _, .bmp _ => True
  | d, d' => d = d'

/-- What the text of a value starts with. -/
def labelOf : Data → String
  | .reserved _ => "Data::Reserved(" | .utf8 _ => "Data::Utf8(" | .utf16 _ => "Data::Utf16(" | .jpeg _ => "Data::Jpeg"
  | .png _ => "Data::Png" | .beSigned _ => "Data::BeSigned(" | .bmp _ => "Data::Bmp"

theorem debug_label (esc : Char → Str) (d : Data) : (labelOf d).toList <+: d.debug esc := by
  have three : ∀ a b c : Str, a <+: a ++ b ++ c := fun a b c => ⟨b ++ c, (List.append_assoc ..).symm⟩
  cases d with
  | reserved v => exact three "Data::Reserved(".toList _ _
  | utf8 v => exact three "Data::Utf8(".toList _ _
  | utf16 v => exact three "Data::Utf16(".toList _ _
  | jpeg v => exact (List.prefix_rfl : "Data::Jpeg".toList <+: "Data::Jpeg".toList)
  | png v => exact (List.prefix_rfl : "Data::Png".toList <+: "Data::Png".toList)
  | beSigned v => exact three "Data::BeSigned(".toList _ _
  | bmp v => exact (List.prefix_rfl : "Data::Bmp".toList <+: "Data::Bmp".toList)

/-- **C63.** The text of a value starts with the name of its kind. -/
theorem C63_kinds (esc : Char → Str) (d : Data) : ("Data::".toList ++ (kindShown d).toList) <+: d.debug esc := by
  refine List.IsPrefix.trans ?_ (debug_label esc d)
  cases d <;> rw [labelOf, kindShown] <;> decide +kernel

theorem prefixes_of {a b s : Str} (ha : a <+: s) (hb : b <+: s) : (a.isPrefixOf b || b.isPrefixOf a) = true := by
  rcases Nat.le_total a.length b.length with hl | hl
  · rw [List.isPrefixOf_iff_prefix.mpr (List.prefix_of_prefix_length_le ha hb hl), Bool.true_or]
  · rw [List.isPrefixOf_iff_prefix.mpr (List.prefix_of_prefix_length_le hb ha hl), Bool.or_true]

/-- **C63.** The text of a value tells it apart from all others, except for the bytes of images, if the escaping does. -/
theorem C63_values {esc : Char → Str} (he : ∀ c c', esc c <+: esc c' → c = c') (hn : ∀ c, esc c ≠ []) (d d' : Data) :
    d.debug esc = d'.debug esc ↔ SameShown d d' := by
  have cut : ∀ {a x y b : Str}, a ++ x ++ b = a ++ y ++ b → x = y := fun h => List.append_cancel_left (List.append_cancel_right h)
  constructor
  · intro h
    have hl := prefixes_of (debug_label esc d) (h ▸ debug_label esc d')
    have no : ∀ {a b : String}, (a.toList.isPrefixOf b.toList || b.toList.isPrefixOf a.toList) = false →
        (a.toList.isPrefixOf b.toList || b.toList.isPrefixOf a.toList) = true → False := by
      intro a b h1 h2; rw [h1] at h2; cases h2
    cases d <;> cases d' <;> rw [labelOf, labelOf] at hl <;> first
      | exact (no (by decide +kernel) hl).elim
      | exact trivial
      | exact congrArg Data.reserved (debugBytes_inj (cut h))
      | exact congrArg Data.beSigned (debugBytes_inj (cut h))
      | exact congrArg Data.utf8 (debugStr_inj he hn (cut h))
      | exact congrArg Data.utf16 (debugStr_inj he hn (cut h))
  · intro h
    have hc : d = d' ∨ (∃ v w, d = .jpeg v ∧ d' = .jpeg w) ∨ (∃ v w, d = .png v ∧ d' = .png w) ∨ (∃ v w, d = .bmp v ∧ d' = .bmp w) := by
      cases d <;> cases d' <;> first
        | exact .inl h
        | exact .inr (.inl ⟨_, _, rfl, rfl⟩)
        | exact .inr (.inr (.inl ⟨_, _, rfl, rfl⟩))
        | exact .inr (.inr (.inr ⟨_, _, rfl, rfl⟩))
    rcases hc with rfl | ⟨v, w, rfl, rfl⟩ | ⟨v, w, rfl, rfl⟩ | ⟨v, w, rfl, rfl⟩
    · rfl
    · exact (rfl : "Data::Jpeg".toList = "Data::Jpeg".toList)
    · exact (rfl : "Data::Png".toList = "Data::Png".toList)
    · exact (rfl : "Data::Bmp".toList = "Data::Bmp".toList)

/-- An escaping that can be undone. -/
def escSafe (c : Char) : Str := if c = '\n' then ['\\', 'n'] else if c = '"' then ['\\', '"']
  else if c = '\\' then ['\\', '\\'] else [c]

theorem escSafe_ne (c : Char) : escSafe c ≠ [] := by
  rw [escSafe]; split
  · simp
  · split
    · simp
    · split <;> simp

theorem escSafe_free (c c' : Char) (h : escSafe c <+: escSafe c') : c = c' := by
  revert h
  rw [escSafe, escSafe]
  split <;> split <;> (try split) <;> (try split) <;> (try split) <;> (try split) <;> (intro h; simp_all [List.cons_prefix_cons])

example : (Data.utf8 "a\\n".toList).debug escSafe ≠ (Data.utf8 "a\n".toList).debug escSafe
    ∧ (Data.utf8 "a".toList).debug escSafe ≠ (Data.utf16 "a".toList).debug escSafe
    ∧ (Data.reserved [1, 23]).debug escSafe ≠ (Data.reserved [12, 3]).debug escSafe
    ∧ (Data.jpeg [1]).debug escSafe = (Data.jpeg [2]).debug escSafe
    ∧ (Data.utf8 "a\\n".toList).debug escEx = (Data.utf8 "a\n".toList).debug escEx :=
  ⟨fun h => absurd ((C63_values escSafe_free escSafe_ne _ _).mp h) (fun h => absurd (Data.utf8.inj h) (by decide)),
   fun h => absurd ((C63_values escSafe_free escSafe_ne _ _).mp h) (fun h => by cases h),
   fun h => absurd ((C63_values escSafe_free escSafe_ne _ _).mp h) (fun h => absurd (Data.reserved.inj h) (by decide)),
   (C63_values escSafe_free escSafe_ne _ _).mpr trivial, by decide +kernel⟩

/-- **C63 is false in general.** A title containing a line break imitates a year: two tags with
different titles and years print the same text, and a reader finds a year in a tag without one. -/
theorem C63_refuted_linebreak : ∃ t u : Tag,
    t.stringsOf (.fourcc YEAR) = [] ∧ u.stringsOf (.fourcc YEAR) = ["1999".toList] ∧
    ∀ esc, t.display esc = u.display esc ∧
      fieldValues "year".toList "year".toList (shown esc t) = ["1999".toList] := by
  refine ⟨({} : Tag).setString (.fourcc TITLE) "a\nyear: 1999".toList,
    (({} : Tag).setString (.fourcc TITLE) "a".toList).setString (.fourcc YEAR) "1999".toList,
    by decide, by decide, fun esc => ?_⟩
  have h1 : ∀ t : Tag, (∀ a ∈ t.atoms, ∃ f, a.ident = .fourcc f) → t.display esc = t.display escEx := by
    intro t ht
    have : ∀ esc, t.atoms.flatMap (AtomData.formatFreeform esc) = [] := by
      intro esc
      rw [List.flatMap_eq_nil_iff]
      intro a ha
      obtain ⟨f, hf⟩ := ht a ha
      rw [AtomData.formatFreeform, hf]
    unfold Tag.display
    rw [this, this]
  rw [shown, h1 _ (by intro a ha; simp [Tag.setString, Tag.setData, modFirst] at ha; subst ha; exact ⟨_, rfl⟩),
    h1 _ (by
      intro a ha
      have : ∀ a ∈ ((({} : Tag).setString (.fourcc TITLE) "a".toList).setString (.fourcc YEAR) "1999".toList).atoms,
        a.ident = .fourcc TITLE ∨ a.ident = .fourcc YEAR := by decide
      rcases this a ha with h | h
      · exact ⟨_, h⟩
      · exact ⟨_, h⟩)]
  decide +kernel

/-! ### C64 -/

/-- **C64.** The shown duration is the duration rounded down to nanoseconds, microseconds, milliseconds
or seconds, minutes and seconds below a larger unit having two digits. -/
theorem C64_duration (esc : Char → Str) (he : ∀ c, '\n' ∉ esc c) (t : Tag) (ht : OneLine t) :
    (fieldValues "duration".toList "duration".toList (shown esc t)).map readDuration
      = t.info.duration.toList.map fun d => some (d / durationUnit d, durationUnit d) := by
  have := display_values he ht (optField "duration".toList (t.duration.map durationText)) (by simp [fields])
    (optField_unmark _ _)
  rw [optField_values] at this
  rw [show fieldValues "duration".toList "duration".toList (shown esc t) = _ from this]
  show ((t.info.duration.map durationText).toList).map readDuration = _
  cases t.info.duration with
  | none => rfl
  | some d => simp only [Option.map_some, Option.toList_some, List.map_cons, List.map_nil, readDuration_text]

/-- **C64.** Durations shown alike differ by less than the unit they are shown in, which is at most one
second. -/
theorem C64_duration_close (d d' : Nat) (h : durationText d = durationText d') :
    durationUnit d = durationUnit d' ∧ durationUnit d ≤ 10^9 ∧
    d < d' + durationUnit d ∧ d' < d + durationUnit d := by
  have h1 := readDuration_text d
  rw [h, readDuration_text, Option.some.injEq, Prod.mk.injEq] at h1
  obtain ⟨h1, h2⟩ := h1
  have hu : 0 < durationUnit d := by
    rw [durationUnit]; split <;> (try split) <;> (try split) <;> decide
  rw [h2] at h1
  have a := Nat.div_add_mod d (durationUnit d)
  have b := Nat.div_add_mod d' (durationUnit d)
  have c := Nat.mod_lt d hu
  have e := Nat.mod_lt d' hu
  rw [h1] at b
  refine ⟨h2.symm, ?_, by omega, by omega⟩
  rw [durationUnit]; split <;> (try split) <;> (try split) <;> decide

example : String.ofList (durationText 3723999999999) = "1:02:03" ∧ String.ofList (durationText 60000000000) = "1:00"
    ∧ String.ofList (durationText 59999999999) = "59s" ∧ String.ofList (durationText 1999999) = "1ms"
    ∧ String.ofList (durationText 999) = "999ns" ∧ readDuration "1:02:03".toList = some (3723, 10^9)
    ∧ readDuration "1:2:03".toList = none := by decide +kernel

/-- **C64.** Every artwork is shown, in order, with its format and its size rounded down to bytes, KiB or
MiB. -/
theorem C64_artworks (esc : Char → Str) (he : ∀ c, '\n' ∉ esc c) (t : Tag) (ht : OneLine t) :
    (fieldValues "artwork".toList "artworks".toList (shown esc t)).map readImage
      = (t.imagesOf (.fourcc ARTWORK)).map fun i =>
          some (i.fmt, i.data.length / imageUnit i.data.length, imageUnit i.data.length) := by
  have := display_values he ht (listField "artwork".toList "artworks".toList (t.artworks.map formatArtwork)
    (t.artwork.map formatArtwork)) (by simp [fields]) listField_unmark
  rw [listField_values] at this
  · rw [show fieldValues "artwork".toList "artworks".toList (shown esc t) = _ from this, List.map_map]
    exact List.map_congr_left fun i _ => readImage_format i
  · intro _
    simp only [Tag.artworks, Tag.artwork, List.head?_map]

example : (fieldValues "artwork".toList "artworks".toList (shown escEx shownEx)).map readImage
    = [some (.png, 1, 1024)] :=
  (C64_artworks escEx escEx_nl shownEx shownEx_oneLine).trans (by decide +kernel)

/-- **C64.** Bitrates are shown in units of 1024 bits per second. -/
theorem C64_bitrates (esc : Char → Str) (he : ∀ c, '\n' ∉ esc c) (t : Tag) (ht : OneLine t) :
    (fieldValues "average bitrate".toList "average bitrate".toList (shown esc t)).map
      (fun s => (stripEnd "kbps".toList s).bind readNat) = t.info.avgBitrate.toList.map (fun b => some (b / 1024)) ∧
    (fieldValues "maximum bitrate".toList "maximum bitrate".toList (shown esc t)).map
      (fun s => (stripEnd "kbps".toList s).bind readNat) = t.info.maxBitrate.toList.map (fun b => some (b / 1024)) := by
  have key : ∀ (n : Str) (o : Option Nat),
      optField n (o.map fun c => decimal (c / 1024) ++ "kbps".toList) ∈ fields t →
      (fieldValues n n (shown esc t)).map (fun s => (stripEnd "kbps".toList s).bind readNat)
        = o.toList.map (fun b => some (b / 1024)) := by
    intro n o hf
    have := display_values he ht _ hf (optField_unmark _ _)
    rw [optField_values] at this
    rw [show fieldValues n n (shown esc t) = _ from this]
    cases o with
    | none => rfl
    | some c => simp only [Option.map_some, Option.toList_some, List.map_cons, List.map_nil, stripEnd_append,
        Option.bind_some, readNat_decimal]
  exact ⟨key "average bitrate".toList t.avgBitrate (by simp [fields]),
    key "maximum bitrate".toList t.maxBitrate (by simp [fields])⟩

example : (fieldValues "average bitrate".toList "average bitrate".toList (shown escEx shownEx)).map
    (fun s => (stripEnd "kbps".toList s).bind readNat) = [some 125] :=
  (C64_bitrates escEx escEx_nl shownEx shownEx_oneLine).1

/-! ### C65

Full statement: different identifiers are shown differently. It is false for freeform identifiers, whose
parts may contain the colon that separates them. -/

theorem latin1_injective {a b : UInt8} (h : Char.ofNat a.toNat = Char.ofNat b.toNat) : a = b := by
  have key : ∀ k : Fin 256, (Char.ofNat k.val).toNat = k.val := by decide +kernel
  have ha := key ⟨a.toNat, a.toNat_lt⟩
  have hb := key ⟨b.toNat, b.toNat_lt⟩
  simp only at ha hb
  rw [h, hb] at ha
  exact UInt8.toNat_inj.mp ha.symm

/-- **C65.** Identifiers are told apart by their text if the mean strings have no colon. -/
theorem C65_injective_partial (i j : DataIdent)
    (hi : ∀ m n, i = .freeform m n → ':' ∉ m) (hj : ∀ m n, j = .freeform m n → ':' ∉ m)
    (h : i.display = j.display) : i = j := by
  have len : ∀ (f : Fourcc) (m n : Str), f.display ≠ "----:".toList ++ m ++ ":".toList ++ n := by
    intro f m n e
    have := congrArg List.length e
    simp [Fourcc.display, Fourcc.bytes] at this
  cases i with
  | fourcc f =>
    cases j with
    | fourcc g =>
      obtain ⟨a, b, c, d⟩ := f
      obtain ⟨a', b', c', d'⟩ := g
      simp only [DataIdent.display, Fourcc.display, Fourcc.bytes, List.map_cons, List.map_nil, List.cons.injEq,
        and_true] at h
      rw [latin1_injective h.1, latin1_injective h.2.1, latin1_injective h.2.2.1, latin1_injective h.2.2.2]
    | freeform m n => exact absurd h (len f m n)
  | freeform m n =>
    cases j with
    | fourcc g => exact absurd h.symm (len g m n)
    | freeform m' n' =>
      have h' : "----:".toList ++ (m ++ ':' :: n) = "----:".toList ++ (m' ++ ':' :: n') := by
        simpa [DataIdent.display] using h
      have h2 := List.append_cancel_left h'
      have hm := prefix_colon n n' (hi m n rfl) (hj m' n' rfl) (h2 ▸ List.prefix_refl _)
      subst hm
      have := List.append_cancel_left h2
      cases this
      rfl

/-- **C65 is false for freeform identifiers in general.** -/
theorem C65_refuted : ∃ i j : DataIdent, i ≠ j ∧ i.display = j.display :=
  ⟨.freeform "a:b".toList "c".toList, .freeform "a".toList "b:c".toList, by decide, by decide⟩

example : (DataIdent.fourcc (cc '©' 'n' 'a' 'm')).display = "©nam".toList
    ∧ (DataIdent.fourcc FREEFORM).display = "----".toList
    ∧ (DataIdent.freeform [] []).display = "----::".toList := by decide

end Mp4.Props
