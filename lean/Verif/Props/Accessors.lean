import Verif.Proof.Accessors
import Verif.Props.TagMap
/-
C11–C23: the typed accessors.

The generated accessors are the same code for every identifier (proc/src/lib.rs); the theorems hold for
every identifier `i`, C15 relates accessor names to identifiers.
-/
namespace Mp4.Props
open Mp4 Spec

theorem set_bytesOf (t : Tag) (i : Ident) (d : Data) : (t.setData i d).bytesOf i = d.bytes?.toList := by
  simp only [Tag.bytesOf, C02_set, if_true]; cases d <;> rfl

theorem set_stringsOf (t : Tag) (i : Ident) (d : Data) : (t.setData i d).stringsOf i = d.string?.toList := by
  simp only [Tag.stringsOf, C02_set, if_true]; cases d <;> rfl

theorem map_utf8_strings (l : List Str) : (l.map Data.utf8).filterMap Data.string? = l := by
  induction l with
  | nil => rfl
  | cons s l ih => rw [List.map_cons, List.filterMap_cons, ih]; rfl

theorem map_utf8_strings' (l : List Str) : l.filterMap (Data.string? ∘ Data.utf8) = l := by
  rw [← List.filterMap_map, map_utf8_strings]

theorem toData_fourcc (f : Fourcc) : (Ident.fourcc f).toData = .fourcc f := rfl

/-! ### C11 -/

/-- **C11.** `set_x(s)` then `x()`. -/
theorem C11_get_set (t : Tag) (i : Ident) (s : Str) : (t.setString i s).getString i = some s := by
  simp [Tag.getString, Tag.setString, set_stringsOf, Data.string?]

/-- **C11.** `remove_x` then `x()`. -/
theorem C11_get_remove (t : Tag) (i : Ident) : (t.removeValue i).getString i = none := by
  simp [Tag.getString, Tag.removeValue, Tag.stringsOf, C04_remove]

/-- **C11.** `take_x` returns `x()` and removes it. -/
theorem C11_take (t : Tag) (i : Ident) (h : t.NoDup) :
    (t.takeString i).1 = t.getString i ∧ (t.takeString i).2.getString i = none := by
  constructor
  · simp [Tag.takeString, Tag.getString, (C05_take_kinds t i).2.1]
  · simp [Tag.takeString, Tag.getString, Tag.takeStringsOf, Tag.stringsOf, C05_take_removes t i i h]

/-- **C11.** No other identifier is affected. -/
theorem C11_others (t : Tag) (i j : Ident) (s : Str) (hj : j.toData ≠ i.toData) (h : t.NoDup) :
    (t.setString i s).dataOf j = t.dataOf j ∧ (t.removeValue i).dataOf j = t.dataOf j ∧
    (t.takeString i).2.dataOf j = t.dataOf j := by
  refine ⟨?_, ?_, ?_⟩
  · simp [Tag.setString, C02_set, hj]
  · simp [Tag.removeValue, C04_remove, hj]
  · simp [Tag.takeString, Tag.takeStringsOf, C05_take_removes t i j h, hj]

example : (sampleTag.setString (.fourcc ALBUM) "x".toList).getString (.fourcc ALBUM) = some "x".toList
    ∧ (sampleTag.takeString (.fourcc ARTIST)).1 = some "a".toList := by decide

/-! ### C12 -/

/-- **C12.** `set_xs(l)`, `set_x(s)`. -/
theorem C12_set (t : Tag) (i : Ident) (l : List Str) (s : Str) :
    (t.setStrings i l).getStrings i = l ∧ (t.setString i s).getStrings i = [s] := by
  constructor
  · simp [Tag.setStrings, Tag.getStrings, Tag.stringsOf, C02_set_all, map_utf8_strings']
  · simp [Tag.setString, Tag.getStrings, set_stringsOf, Data.string?]

/-- **C12.** `add_xs(l)`, `add_x(s)` append after the existing string values. -/
theorem C12_add (t : Tag) (i : Ident) (l : List Str) (s : Str) :
    (t.addStrings i l).getStrings i = t.getStrings i ++ l ∧
    (t.addString i s).getStrings i = t.getStrings i ++ [s] := by
  constructor
  · simp [Tag.addStrings, Tag.getStrings, Tag.stringsOf, C03_add_all, map_utf8_strings']
  · simp [Tag.addString, Tag.getStrings, Tag.stringsOf, C03_add, Data.string?]

/-- **C12.** `x()` is the first of `xs()`. -/
theorem C12_first (t : Tag) (i : Ident) : t.getString i = (t.getStrings i).head? := rfl

/-- **C12.** `take_xs`, `take_x` and `remove_xs`. -/
theorem C12_take_remove (t : Tag) (i : Ident) (h : t.NoDup) :
    (t.takeStringValues i).1 = t.getStrings i ∧ (t.takeStringValues i).2.getStrings i = [] ∧
    (t.takeString i).1 = (t.getStrings i).head? ∧ (t.takeString i).2.getStrings i = [] ∧
    (t.removeValue i).getStrings i = [] := by
  refine ⟨?_, ?_, ?_, ?_, ?_⟩
  · simp [Tag.takeStringValues, Tag.getStrings, (C05_take_kinds t i).2.1]
  · simp [Tag.takeStringValues, Tag.getStrings, Tag.takeStringsOf, Tag.stringsOf, C05_take_removes t i i h]
  · simp [Tag.takeString, Tag.getStrings, (C05_take_kinds t i).2.1]
  · simp [Tag.takeString, Tag.getStrings, Tag.takeStringsOf, Tag.stringsOf, C05_take_removes t i i h]
  · simp [Tag.getStrings, Tag.removeValue, Tag.stringsOf, C04_remove]

/-- **C12.** No other identifier is affected. -/
theorem C12_others (t : Tag) (i j : Ident) (s : Str) (l : List Str) (hj : j.toData ≠ i.toData)
    (h : t.NoDup) :
    (t.setStrings i l).dataOf j = t.dataOf j ∧ (t.addStrings i l).dataOf j = t.dataOf j ∧
    (t.addString i s).dataOf j = t.dataOf j ∧ (t.takeStringValues i).2.dataOf j = t.dataOf j := by
  refine ⟨?_, ?_, ?_, ?_⟩
  · simp [Tag.setStrings, C02_set_all, hj]
  · simp [Tag.addStrings, C03_add_all, hj]
  · simp [Tag.addString, C03_add, hj]
  · simp [Tag.takeStringValues, Tag.takeStringsOf, C05_take_removes t i j h, hj]

example : (sampleTag.addString (.fourcc ARTIST) "z".toList).getStrings (.fourcc ARTIST)
    = ["a".toList, "b".toList, "z".toList] := by decide

/-! ### C13 -/

/-- **C13.** `x()` is true exactly when the first byte value starts with 1. -/
theorem C13_get (t : Tag) (i : Ident) :
    t.getFlag i = true ↔ ∃ v r, t.bytesOf i = (1 :: v) :: r := by
  simp only [Tag.getFlag]
  rcases h : t.bytesOf i with _ | ⟨_ | ⟨b, v⟩, r⟩
  · simp
  · simp
  · simp

/-- **C13.** `set_x`, `remove_x`, and no other identifier is affected. -/
theorem C13_set_remove (t : Tag) (i j : Ident) (hj : j.toData ≠ i.toData) :
    (t.setFlag i).getFlag i = true ∧ (t.removeValue i).getFlag i = false ∧
    (t.setFlag i).dataOf j = t.dataOf j ∧ (t.removeValue i).dataOf j = t.dataOf j := by
  refine ⟨?_, ?_, ?_, ?_⟩
  · rw [C13_get]; exact ⟨[], [], by simp [Tag.setFlag, set_bytesOf, Data.bytes?]⟩
  · simp [Tag.getFlag, Tag.removeValue, Tag.bytesOf, C04_remove]
  · simp [Tag.setFlag, C02_set, hj]
  · simp [Tag.removeValue, C04_remove, hj]

example : (sampleTag.setFlag (.fourcc COMPILATION)).getFlag (.fourcc COMPILATION) = true
    ∧ sampleTag.getFlag (.fourcc COMPILATION) = false := by decide

/-! ### C14 -/

/-- **C14.** get after set, for every `u16` (`size = 2`) and every `u32` (`size = 4`). -/
theorem C14_get_set (t : Tag) (i : Ident) (size n : Nat) (h : n < 256 ^ size) :
    (t.setInt i size n).getInt i size = some n := by
  simp [Tag.getInt, Tag.setInt, set_bytesOf, Data.bytes?, beInt, List.take_of_length_le,
    beNat_toBe_of_lt _ _ h]

/-- **C14.** The two instances. -/
theorem C14_get_set_u16_u32 (t : Tag) (i : Ident) (n : Nat) :
    (n < 2^16 → (t.setInt i 2 n).getInt i 2 = some n) ∧
    (n < 2^32 → (t.setInt i 4 n).getInt i 4 = some n) :=
  ⟨fun h => C14_get_set t i 2 n (by simpa using h), fun h => C14_get_set t i 4 n (by simpa using h)⟩

/-- **C14.** What is read: nothing without a byte value or with too few bytes, otherwise the first two
(four) bytes, most significant first. -/
theorem C14_get (t : Tag) (i : Ident) :
    (t.bytesOf i = [] → t.getInt i 2 = none ∧ t.getInt i 4 = none) ∧
    (∀ v r, t.bytesOf i = v :: r → v.length < 2 → t.getInt i 2 = none) ∧
    (∀ v r, t.bytesOf i = v :: r → v.length < 4 → t.getInt i 4 = none) ∧
    (∀ a b v r, t.bytesOf i = (a :: b :: v) :: r →
      t.getInt i 2 = some (a.toNat * 256 + b.toNat)) ∧
    (∀ a b c d v r, t.bytesOf i = (a :: b :: c :: d :: v) :: r →
      t.getInt i 4 = some (a.toNat * 2^24 + b.toNat * 2^16 + c.toNat * 2^8 + d.toNat)) := by
  refine ⟨?_, ?_, ?_, ?_, ?_⟩
  · intro h; simp [Tag.getInt, h]
  · intro v r h hl; simp [Tag.getInt, h, beInt]; omega
  · intro v r h hl; simp [Tag.getInt, h, beInt]; omega
  · intro a b v r h; simp [Tag.getInt, h, beInt, beNat]
  · intro a b c d v r h; simp [Tag.getInt, h, beInt, beNat]; omega

example : ((sampleTag.setInt (.fourcc BPM) 2 65535).getInt (.fourcc BPM) 2) = some 65535 := by decide

/-! ### C15 -/

/-- All accessors of the crate with the identifier documented for them: the generated ones with the
string given in the documentation, and the hand-written ones (`artwork` src/tag/mod.rs:170, `media_type`
254, `advisory_rating` 285, `track`/`disc` src/tag/tuple.rs:10,106, `standard_genre`
src/tag/genre.rs:103). -/
def generatedAccessors : List (String × String) :=
  singleStringAccessors ++ multiStringAccessors ++ flagAccessors ++ u16Accessors ++ u32Accessors

/-- **C15.** Every generated accessor uses the identifier documented for it. -/
theorem C15_documented : ∀ x ∈ generatedAccessors,
    ∃ i, macroIdent x.1 = some i ∧ i.toData.display = x.2.toList := by
  have h : ∀ x ∈ generatedAccessors, (match macroIdent x.1 with
      | some i => decide (i.toData.display = x.2.toList)
      | none => false) = true := by decide +kernel
  intro x hx
  have := h x hx
  cases hm : macroIdent x.1 with
  | none => simp [hm] at this
  | some i => exact ⟨i, rfl, by simpa [hm] using this⟩

/-- **C15.** The hand-written accessors use the documented identifiers. -/
theorem C15_documented_handwritten :
    ARTWORK.display = "covr".toList ∧ MEDIA_TYPE.display = "stik".toList ∧
    ADVISORY_RATING.display = "rtng".toList ∧ TRACK_NUMBER.display = "trkn".toList ∧
    DISC_NUMBER.display = "disk".toList ∧ STANDARD_GENRE.display = "gnre".toList ∧
    CUSTOM_GENRE.display = "©gen".toList ∧ macroIdent "custom_genre" = some customGenreI := by decide

/-- The constants of src/atom/ident.rs:4-149 with the identifier given in their documentation. -/
def documentedIdents : List (String × String) := [
  ("FILETYPE", "ftyp"),
  ("MEDIA_DATA", "mdat"),
  ("MOVIE", "moov"),
  ("MOVIE_HEADER", "mvhd"),
  ("TRACK", "trak"),
  ("MEDIA", "mdia"),
  ("MEDIA_INFORMATION", "minf"),
  ("SAMPLE_TABLE", "stbl"),
  ("SAMPLE_TABLE_CHUNK_OFFSET", "stco"),
  ("SAMPLE_TABLE_CHUNK_OFFSET_64", "co64"),
  ("SAMPLE_TABLE_SAMPLE_DESCRIPTION", "stsd"),
  ("MP4_AUDIO", "mp4a"),
  ("ELEMENTARY_STREAM_DESCRIPTION", "esds"),
  ("USER_DATA", "udta"),
  ("METADATA", "meta"),
  ("HANDLER_REFERENCE", "hdlr"),
  ("ITEM_LIST", "ilst"),
  ("DATA", "data"),
  ("MEAN", "mean"),
  ("NAME", "name"),
  ("FREE", "free"),
  ("FREEFORM", "----"),
  ("ADVISORY_RATING", "rtng"),
  ("ALBUM", "©alb"),
  ("ALBUM_ARTIST", "aART"),
  ("ARTIST", "©ART"),
  ("ARTWORK", "covr"),
  ("BPM", "tmpo"),
  ("COMMENT", "©cmt"),
  ("COMPILATION", "cpil"),
  ("COMPOSER", "©wrt"),
  ("COPYRIGHT", "cprt"),
  ("CUSTOM_GENRE", "©gen"),
  ("DISC_NUMBER", "disk"),
  ("ENCODER", "©too"),
  ("STANDARD_GENRE", "gnre"),
  ("TITLE", "©nam"),
  ("TRACK_NUMBER", "trkn"),
  ("YEAR", "©day"),
  ("GROUPING", "©grp"),
  ("MEDIA_TYPE", "stik"),
  ("CATEGORY", "catg"),
  ("KEYWORD", "keyw"),
  ("PODCAST", "pcst"),
  ("PODCAST_EPISODE_GLOBAL_UNIQUE_ID", "egid"),
  ("PODCAST_URL", "purl"),
  ("DESCRIPTION", "desc"),
  ("LYRICS", "©lyr"),
  ("TV_EPISODE", "tves"),
  ("TV_EPISODE_NAME", "tven"),
  ("TV_NETWORK_NAME", "tvnn"),
  ("TV_SEASON", "tvsn"),
  ("TV_SHOW_NAME", "tvsh"),
  ("PURCHASE_DATE", "purd"),
  ("GAPLESS_PLAYBACK", "pgap"),
  ("MOVEMENT", "©mvn"),
  ("MOVEMENT_COUNT", "©mvc"),
  ("MOVEMENT_INDEX", "©mvi"),
  ("WORK", "©wrk"),
  ("SHOW_MOVEMENT", "shwm"),
  ("ISRC", "----:com.apple.iTunes:ISRC"),
  ("LYRICIST", "----:com.apple.iTunes:LYRICIST")]

/-- **C15.** Every constant has the identifier given in its documentation. -/
theorem C15_constants : identConsts.map (fun x => (x.1, x.2.toData.display)) = documentedIdents.map (fun x => (x.1, x.2.toList)) := by
  decide +kernel

/-- **C15.** So a constant can be found by its documentation, and no two have the same identifier. -/
theorem C15_constants_distinct : (identConsts.map (·.2.toData)).Nodup ∧ (documentedIdents.map (·.2)).Nodup := by decide +kernel

/-- The identifiers of all accessors. -/
def accessorIdents : List DataIdent :=
  generatedAccessors.filterMap (fun x => (macroIdent x.1).map Ident.toData) ++
  [.fourcc ARTWORK, .fourcc MEDIA_TYPE, .fourcc ADVISORY_RATING, .fourcc TRACK_NUMBER,
   .fourcc DISC_NUMBER, .fourcc STANDARD_GENRE]

/-- **C15.** Distinct accessors use distinct identifiers. -/
theorem C15_distinct : accessorIdents.Nodup ∧ accessorIdents.length = generatedAccessors.length + 6 := by
  decide +kernel

/-- Names are distinct as well, so every entry of the table is one accessor. -/
theorem C15_names : (generatedAccessors.map Prod.fst).Nodup := by decide +kernel

/-- The `Display` form of a fourcc determines it, so agreement with the documentation pins the
identifier. -/
theorem C15_display_injective (f g : Fourcc) (h : f.display = g.display) : f = g := by
  have hinj : ∀ a b : UInt8, Char.ofNat a.toNat = Char.ofNat b.toNat → a = b := by
    intro a b h
    have ha : a.toNat < 0xD800 := Nat.lt_trans a.toNat_lt (by decide)
    have hb : b.toNat < 0xD800 := Nat.lt_trans b.toNat_lt (by decide)
    have va : Nat.isValidChar a.toNat := Or.inl ha
    have vb : Nat.isValidChar b.toNat := Or.inl hb
    rw [Char.ofNat, dif_pos va, Char.ofNat, dif_pos vb] at h
    have h' := congrArg Char.toNat h
    simpa [Char.ofNatAux, Char.toNat, UInt8.toNat_inj] using h'
  obtain ⟨a, b, c, d⟩ := f
  obtain ⟨a', b', c', d'⟩ := g
  simp only [Fourcc.display, Fourcc.bytes, List.map_cons, List.map_nil, List.cons.injEq, and_true] at h
  simp only [Fourcc.mk.injEq]
  exact ⟨hinj _ _ h.1, hinj _ _ h.2.1, hinj _ _ h.2.2.1, hinj _ _ h.2.2.2⟩

/-- **C15.** Hence no accessor disturbs another: whatever is stored by the setters of one accessor
leaves the values of every other accessor unchanged, in every tag. -/
theorem C15_non_interference (t : Tag) (m n : Nat) (x y : DataIdent) (hmn : m ≠ n)
    (hx : accessorIdents[m]? = some x) (hy : accessorIdents[n]? = some y) (ds : List Data) (d : Data) :
    (t.setAllData (.data x) ds).dataOf (.data y) = t.dataOf (.data y) ∧
    (t.addAllData (.data x) ds).dataOf (.data y) = t.dataOf (.data y) ∧
    (t.setData (.data x) d).dataOf (.data y) = t.dataOf (.data y) ∧
    (t.addData (.data x) d).dataOf (.data y) = t.dataOf (.data y) ∧
    (t.removeDataOf (.data x)).dataOf (.data y) = t.dataOf (.data y) := by
  have hne : y ≠ x := by
    rintro rfl
    have hlt := (List.getElem?_eq_some_iff.mp hx).1
    exact hmn ((List.getElem?_inj hlt C15_distinct.1).mp (hx.trans hy.symm))
  simp [C02_set_all, C02_set, C03_add, C03_add_all, C04_remove, Ident.toData, hne]

/-! ### C16 -/

theorem ofImg_images (l : List Img) : (l.map Data.ofImg).filterMap Data.image? = l := by
  induction l with
  | nil => rfl
  | cons s l ih => rw [List.map_cons, List.filterMap_cons, ih, C10_image_roundtrip]

theorem ofImg_images' (l : List Img) : l.filterMap (Data.image? ∘ Data.ofImg) = l := by
  rw [← List.filterMap_map, ofImg_images]

/-- **C16.** -/
theorem C16_set (t : Tag) (x : Img) (l : List Img) :
    (t.setArtwork x).artworks = [x] ∧ (t.setArtworks l).artworks = l := by
  constructor
  · simp [Tag.setArtwork, Tag.artworks, Tag.imagesOf, C02_set, C10_image_roundtrip]
  · simp [Tag.setArtworks, Tag.artworks, Tag.imagesOf, C02_set_all, ofImg_images']

/-- **C16.** -/
theorem C16_add (t : Tag) (x : Img) (l : List Img) :
    (t.addArtwork x).artworks = t.artworks ++ [x] ∧ (t.addArtworks l).artworks = t.artworks ++ l := by
  constructor
  · simp [Tag.addArtwork, Tag.artworks, Tag.imagesOf, C03_add, C10_image_roundtrip]
  · simp [Tag.addArtworks, Tag.artworks, Tag.imagesOf, C03_add_all, ofImg_images']

/-- **C16.** -/
theorem C16_take_remove (t : Tag) (h : t.NoDup) :
    t.artwork = t.artworks.head? ∧ t.takeArtworks.1 = t.artworks ∧ t.takeArtworks.2.artworks = [] ∧
    t.takeArtwork.1 = t.artwork ∧ t.takeArtwork.2.artworks = [] ∧ t.removeArtworks.artworks = [] := by
  refine ⟨rfl, ?_, ?_, ?_, ?_, ?_⟩
  · simp [Tag.takeArtworks, Tag.artworks, (C05_take_kinds t _).2.2.1]
  · simp [Tag.takeArtworks, Tag.artworks, Tag.takeImagesOf, Tag.imagesOf, C05_take_removes t _ _ h]
  · simp [Tag.takeArtwork, Tag.artwork, (C05_take_kinds t _).2.2.1]
  · simp [Tag.takeArtwork, Tag.artworks, Tag.takeImagesOf, Tag.imagesOf, C05_take_removes t _ _ h]
  · simp [Tag.removeArtworks, Tag.artworks, Tag.imagesOf, C04_remove]

/-- **C16.** Other identifiers are unaffected. -/
theorem C16_others (t : Tag) (j : Ident) (hj : j.toData ≠ .fourcc ARTWORK) (h : t.NoDup) (x : Img)
    (l : List Img) :
    (t.setArtwork x).dataOf j = t.dataOf j ∧ (t.setArtworks l).dataOf j = t.dataOf j ∧
    (t.addArtwork x).dataOf j = t.dataOf j ∧ (t.addArtworks l).dataOf j = t.dataOf j ∧
    t.takeArtworks.2.dataOf j = t.dataOf j ∧ t.removeArtworks.dataOf j = t.dataOf j := by
  simp [Tag.setArtwork, Tag.setArtworks, Tag.addArtwork, Tag.addArtworks, Tag.takeArtworks,
    Tag.removeArtworks, Tag.takeImagesOf, C02_set, C02_set_all, C03_add, C03_add_all, C04_remove,
    C05_take_removes t _ j h, toData_fourcc, hj]

example : sampleTag.artworks = [⟨.png, [1, 2, 3]⟩, ⟨.jpeg, []⟩] := by decide

/-! ### C17 -/

/-- **C17.** -/
theorem C17_get_set (t : Tag) (m : MediaType) : (t.setMediaType m).mediaType = some m := by
  simp only [Tag.mediaType, Tag.setMediaType, set_bytesOf, Data.bytes?]
  cases m <;> rfl

/-- **C17.** Distinct media types have distinct codes. -/
theorem C17_codes_distinct (m n : MediaType) (h : m.code = n.code) : m = n := by
  cases m <;> cases n <;> first | rfl | exact absurd h (by decide)

/-- **C17.** Exactly the codes of media types are recognised; everything else reads as absent. -/
theorem C17_get (t : Tag) :
    (t.mediaType = none ↔ ∀ b v r, t.bytesOf (.fourcc MEDIA_TYPE) = (b :: v) :: r → ∀ m, b ≠ MediaType.code m)
    ∧ ∀ m, t.mediaType = some m ↔ ∃ v r, t.bytesOf (.fourcc MEDIA_TYPE) = (m.code :: v) :: r := by
  have key : ∀ b : UInt8, ∀ m : MediaType, MediaType.ofCode b = some m ↔ b = m.code := by
    intro b m
    constructor
    · intro h
      simp only [MediaType.ofCode] at h
      repeat' (split at h; · simp only [Option.some.injEq] at h; subst h; simpa [MediaType.code])
      simp at h
    · rintro rfl; cases m <;> rfl
  have hm : ∀ m, t.mediaType = some m ↔ ∃ v r, t.bytesOf (.fourcc MEDIA_TYPE) = (m.code :: v) :: r := by
    intro m
    simp only [Tag.mediaType]
    rcases h : t.bytesOf (.fourcc MEDIA_TYPE) with _ | ⟨_ | ⟨b, v⟩, r⟩
    · simp
    · simp
    · simp [key]
  refine ⟨?_, hm⟩
  constructor
  · intro hn b v r hb m he
    have := (hm m).mpr ⟨v, r, by rw [hb, he]⟩
    rw [hn] at this; simp at this
  · intro hall
    cases hc : t.mediaType with
    | none => rfl
    | some m =>
      obtain ⟨v, r, h⟩ := (hm m).mp hc
      exact absurd rfl (hall _ v r h m)

/-- **C17.** Removal and other identifiers. -/
theorem C17_remove (t : Tag) (m : MediaType) (j : Ident) (hj : j.toData ≠ .fourcc MEDIA_TYPE) :
    t.removeMediaType.mediaType = none ∧ t.removeMediaType.dataOf j = t.dataOf j ∧
    (t.setMediaType m).dataOf j = t.dataOf j := by
  refine ⟨?_, ?_, ?_⟩
  · simp [Tag.mediaType, Tag.removeMediaType, Tag.bytesOf, C04_remove]
  · simp [Tag.removeMediaType, C04_remove, toData_fourcc, hj]
  · simp [Tag.setMediaType, C02_set, toData_fourcc, hj]

/-! ### C18 -/

/-- **C18.** -/
theorem C18_get_set (t : Tag) (r : AdvisoryRating) : (t.setAdvisoryRating r).advisoryRating = some r := by
  simp only [Tag.advisoryRating, Tag.setAdvisoryRating, set_bytesOf, Data.bytes?]
  cases r <;> rfl

/-- **C18.** Code 0 is inoffensive, 2 clean, everything else explicit; no value or an empty value is
absent. -/
theorem C18_get (t : Tag) :
    (∀ b v r, t.bytesOf (.fourcc ADVISORY_RATING) = (b :: v) :: r →
      t.advisoryRating = some (if b = 0 then .inoffensive else if b = 2 then .clean else .explicit)) ∧
    (t.bytesOf (.fourcc ADVISORY_RATING) = [] → t.advisoryRating = none) ∧
    (∀ r, t.bytesOf (.fourcc ADVISORY_RATING) = [] :: r → t.advisoryRating = none) := by
  refine ⟨?_, ?_, ?_⟩
  · intro b v r h
    simp only [Tag.advisoryRating, h, List.head?_cons, AdvisoryRating.ofCode]
    by_cases h0 : b = 0
    · subst h0; rfl
    · by_cases h2 : b = 2
      · subst h2; rfl
      · simp [h0, h2]
  · intro h; simp [Tag.advisoryRating, h]
  · intro r h; simp [Tag.advisoryRating, h]

/-- **C18.** Removal and other identifiers. -/
theorem C18_remove (t : Tag) (r : AdvisoryRating) (j : Ident) (hj : j.toData ≠ .fourcc ADVISORY_RATING) :
    t.removeAdvisoryRating.advisoryRating = none ∧ t.removeAdvisoryRating.dataOf j = t.dataOf j ∧
    (t.setAdvisoryRating r).dataOf j = t.dataOf j := by
  refine ⟨?_, ?_, ?_⟩
  · simp [Tag.advisoryRating, Tag.removeAdvisoryRating, Tag.bytesOf, C04_remove]
  · simp [Tag.removeAdvisoryRating, C04_remove, toData_fourcc, hj]
  · simp [Tag.setAdvisoryRating, C02_set, toData_fourcc, hj]

example : ((({} : Tag).setAdvisoryRating .explicit).setMediaType .movie).removeAdvisoryRating = ({} : Tag).setMediaType .movie ∧
    (Ident.fourcc MEDIA_TYPE).toData ≠ .fourcc ADVISORY_RATING := by decide

/-! ### C19 -/

/-- 0 is read as absent. -/
def present (n : Nat) : Option Nat := if n = 0 then none else some n

theorem tupNumber_set (v n) (h : n < 65536) : tupNumber (tupSetNumber v n) = present n := by
  rw [tupNumber, tupSetNumber, beInt_setBeInt _ _ _ _ (by simpa using h)]; rfl

theorem tupTotal_set (v n) (h : n < 65536) : tupTotal (tupSetTotal v n) = present n := by
  rw [tupTotal, tupSetTotal, beInt_setBeInt _ _ _ _ (by simpa using h)]; rfl

theorem tupTotal_setNumber (v n) : tupTotal (tupSetNumber v n) = tupTotal v := by
  rw [tupTotal, tupSetNumber, beInt_setBeInt_after _ _ _ _ _ _ (by omega) (by omega)]; rfl

theorem tupNumber_setTotal (v n) (h : v.length ≠ 3) : tupNumber (tupSetTotal v n) = tupNumber v := by
  rw [tupNumber, tupSetTotal, beInt_setBeInt_before _ _ _ _ _ _ (by omega)]
  by_cases hl : 4 ≤ v.length
  · rw [beInt_padTo _ _ _ _ (by omega)]; rfl
  · have h2 : beInt v 2 2 = none := by rw [beInt, if_pos (by omega)]
    rw [tupNumber, h2]
    rcases v with _ | ⟨a, _ | ⟨b, _ | ⟨c, v⟩⟩⟩
    · simp [padTo, beInt, beNat, nonZero]
    · simp [padTo, beInt, beNat, nonZero]
    · simp [padTo, beInt, beNat, nonZero]
    · simp only [List.length_cons] at h hl; omega

theorem tup_new (n m) (hn : n < 65536) (hm : m < 65536) :
    tupNumber (tupNew n m) = present n ∧ tupTotal (tupNew n m) = present m := by
  have h1 : beInt (tupNew n m) 2 2 = some n := by
    rw [beInt, tupNew, if_neg (by simp)]
    have : ([0, 0] ++ toBe 2 n ++ toBe 2 m : Bytes).drop 2 = toBe 2 n ++ toBe 2 m := rfl
    rw [this, List.take_left' (by simp), beNat_toBe_of_lt _ _ (by simpa using hn)]
  have h2 : beInt (tupNew n m) 4 2 = some m := by
    rw [beInt, tupNew, if_neg (by simp)]
    have : ([0, 0] ++ toBe 2 n ++ toBe 2 m : Bytes).drop 4 = toBe 2 m := by
      rw [List.drop_left' (by simp)]
    rw [this, List.take_of_length_le (by simp), beNat_toBe_of_lt _ _ (by simpa using hm)]
  exact ⟨by rw [tupNumber, h1]; rfl, by rw [tupTotal, h2]; rfl⟩

theorem setPair_eq (t : Tag) (i : Ident) (n m) : t.setPair i n m
    = (t.withFirstBytes i (fun v => tupSetNumber (tupSetTotal v m) n)).getD
        (t.setData i (.reserved (tupNew n m))) := by
  simp only [Tag.setPair, Tag.setNewPair]; split <;> simp_all

theorem setNumber_eq (t : Tag) (i : Ident) (n) : t.setNumber i n
    = (t.withFirstBytes i (fun v => tupSetNumber v n)).getD (t.setData i (.reserved (tupNew n 0))) := by
  simp only [Tag.setNumber, Tag.setNewPair]; split <;> simp_all

theorem setTotal_eq (t : Tag) (i : Ident) (n) : t.setTotal i n
    = (t.withFirstBytes i (fun v => tupSetTotal v n)).getD (t.setData i (.reserved (tupNew 0 n))) := by
  simp only [Tag.setTotal, Tag.setNewPair]; split <;> simp_all

/-- **C19.** `track()` is always the pair of `track_number()` and `total_tracks()` (`i = trackI`; for
discs `i = discI`). -/
theorem C19_pair (t : Tag) (i : Ident) : t.getPair i = (t.getNumber i, t.getTotal i) := by
  simp only [Tag.getPair, Tag.getNumber, Tag.getTotal]
  cases (t.bytesOf i).head? <;> rfl

/-- **C19.** `set_track(n, m)` / `set_disc(n, m)`, whatever is stored before. -/
theorem C19_set_pair (t : Tag) (i : Ident) (n m : Nat) (hn : n < 65536) (hm : m < 65536) :
    (t.setPair i n m).getPair i = (present n, present m) := by
  have h := (firstBytes_effect t i (fun v => tupSetNumber (tupSetTotal v m) n) (.reserved (tupNew n m))).1
  rw [← setPair_eq] at h
  rw [Tag.getPair, h]
  cases t.bytesOf i with
  | nil => simp [Data.bytes?, tup_new n m hn hm]
  | cons v r => simp [tupNumber_set _ _ hn, tupTotal_setNumber, tupTotal_set _ _ hm]

/-- **C19.** `set_track_number(n)` sets the number and keeps the total, whatever is stored before. -/
theorem C19_set_number (t : Tag) (i : Ident) (n : Nat) (hn : n < 65536) :
    (t.setNumber i n).getNumber i = present n ∧ (t.setNumber i n).getTotal i = t.getTotal i := by
  have h := (firstBytes_effect t i (fun v => tupSetNumber v n) (.reserved (tupNew n 0))).1
  rw [← setNumber_eq] at h
  rw [Tag.getNumber, Tag.getTotal, Tag.getTotal, h]
  cases t.bytesOf i with
  | nil => simp [Data.bytes?, tup_new n 0 hn (by omega), present]
  | cons v r => simp [tupNumber_set _ _ hn, tupTotal_setNumber]

/-- **C19.** `set_total_tracks(m)` sets the total, whatever is stored before. -/
theorem C19_set_total (t : Tag) (i : Ident) (m : Nat) (hm : m < 65536) :
    (t.setTotal i m).getTotal i = present m := by
  have h := (firstBytes_effect t i (fun v => tupSetTotal v m) (.reserved (tupNew 0 m))).1
  rw [← setTotal_eq] at h
  rw [Tag.getTotal, h]
  cases t.bytesOf i with
  | nil => simp [Data.bytes?, tup_new 0 m (by omega) hm]
  | cons v r => simp [tupTotal_set _ _ hm]

/-- **C19, partial.** `set_total_tracks(m)` keeps the number, unless the stored value has exactly three
bytes. Full statement: the same without `hl`; it is false, see `C19_refuted`. -/
theorem C19_set_total_keeps_number_partial (t : Tag) (i : Ident) (m : Nat) (hm : m < 65536)
    (hl : ∀ v r, t.bytesOf i = v :: r → v.length ≠ 3) :
    (t.setTotal i m).getNumber i = t.getNumber i := by
  have h := (firstBytes_effect t i (fun v => tupSetTotal v m) (.reserved (tupNew 0 m))).1
  rw [← setTotal_eq] at h
  rw [Tag.getNumber, Tag.getNumber, h]
  cases hb : t.bytesOf i with
  | nil => simp [Data.bytes?, tup_new 0 m (by omega) hm, present]
  | cons v r => simp [tupNumber_setTotal v m (hl v r hb)]

/-- **C19, refutation.** With three stored bytes `0 0 1` the track number is absent, but setting the
total makes it 256: the value is padded with zeros behind the third byte. -/
theorem C19_refuted : ∃ (t : Tag) (m : Nat), m < 65536 ∧ t.NoDup ∧
    t.getNumber trackI = none ∧ (t.setTotal trackI m).getNumber trackI = some 256 :=
  ⟨{ atoms := [⟨.fourcc TRACK_NUMBER, [.reserved [0, 0, 1]]⟩] }, 5, by decide⟩

/-- **C19.** No other identifier is affected; in particular track operations leave discs alone and vice
versa. -/
theorem C19_others (t : Tag) (i j : Ident) (hj : j.toData ≠ i.toData) (n m : Nat) :
    (t.setPair i n m).dataOf j = t.dataOf j ∧ (t.setNumber i n).dataOf j = t.dataOf j ∧
    (t.setTotal i m).dataOf j = t.dataOf j := by
  refine ⟨?_, ?_, ?_⟩
  · rw [setPair_eq]; exact (firstBytes_effect t i _ _).2.1 j hj
  · rw [setNumber_eq]; exact (firstBytes_effect t i _ _).2.1 j hj
  · rw [setTotal_eq]; exact (firstBytes_effect t i _ _).2.1 j hj

/-- Track and disc are different identifiers. -/
theorem C19_track_disc : trackI.toData ≠ discI.toData := by decide

/-- **C19.** Values of other kinds under the same identifier survive an in-place update. -/
theorem C19_other_kinds (t : Tag) (i : Ident) (n m : Nat) (h : t.bytesOf i ≠ []) :
    ((t.setPair i n m).dataOf i).filter (!·.isBytes) = (t.dataOf i).filter (!·.isBytes) := by
  rw [setPair_eq]; exact (firstBytes_effect t i _ _).2.2 h

example : ((sampleTag.setPair trackI 3 0).setTotal trackI 65535).getPair trackI = (some 3, some 65535) := by
  decide

/-! ### C20 -/

theorem removeNumber_eq (t : Tag) (i : Ident) : t.removeNumber i =
    (if t.bytesOf i = [] then t.removeDataOf i
     else (t.withFirstBytes i (fun v => tupSetNumber v 0)).getD (t.setData i (.reserved []))) := by
  simp only [Tag.removeNumber, Tag.removePair]
  cases hb : t.bytesOf i with
  | nil => simp
  | cons v r =>
    have hs := withFirstBytes_isSome t i (fun v => tupSetNumber v 0)
    rw [hb] at hs
    obtain ⟨t', ht'⟩ := Option.isSome_iff_exists.mp (by simpa using hs)
    have : tupTotal v ≠ some 0 := nonZero_ne _
    simp [this, ht']

theorem removeTotal_eq (t : Tag) (i : Ident) : t.removeTotal i =
    (if t.bytesOf i = [] then t.removeDataOf i
     else (t.withFirstBytes i (fun v => tupSetTotal v 0)).getD (t.setData i (.reserved []))) := by
  simp only [Tag.removeTotal, Tag.removePair]
  cases hb : t.bytesOf i with
  | nil => simp
  | cons v r =>
    have hs := withFirstBytes_isSome t i (fun v => tupSetTotal v 0)
    rw [hb] at hs
    obtain ⟨t', ht'⟩ := Option.isSome_iff_exists.mp (by simpa using hs)
    have : tupNumber v ≠ some 0 := nonZero_ne _
    simp [this, ht']

/-- **C20.** `remove_track_number` makes the number absent and preserves the total. -/
theorem C20_remove_number (t : Tag) (i : Ident) :
    (t.removeNumber i).getNumber i = none ∧ (t.removeNumber i).getTotal i = t.getTotal i := by
  have h := (firstBytes_effect t i (fun v => tupSetNumber v 0) (.reserved [])).1
  rw [removeNumber_eq]
  cases hb : t.bytesOf i with
  | nil =>
    have : (t.removeDataOf i).bytesOf i = [] := by simp [Tag.bytesOf, C04_remove]
    simp [Tag.getNumber, Tag.getTotal, hb, this]
  | cons v r =>
    rw [hb] at h
    simp [Tag.getNumber, Tag.getTotal, hb, h, tupTotal_setNumber, tupNumber_set, present]

/-- **C20.** `remove_total_tracks` makes the total absent. -/
theorem C20_remove_total (t : Tag) (i : Ident) : (t.removeTotal i).getTotal i = none := by
  have h := (firstBytes_effect t i (fun v => tupSetTotal v 0) (.reserved [])).1
  rw [removeTotal_eq]
  cases hb : t.bytesOf i with
  | nil => simp [Tag.getTotal, Tag.bytesOf, C04_remove]
  | cons v r =>
    rw [hb] at h
    simp [Tag.getTotal, h, tupTotal_set, present]

/-- **C20, partial.** `remove_total_tracks` preserves the number unless the stored value has exactly three
bytes (otherwise false, see `C20_refuted_preserve`). -/
theorem C20_remove_total_keeps_number_partial (t : Tag) (i : Ident)
    (hl : ∀ v r, t.bytesOf i = v :: r → v.length ≠ 3) :
    (t.removeTotal i).getNumber i = t.getNumber i := by
  have h := (firstBytes_effect t i (fun v => tupSetTotal v 0) (.reserved [])).1
  rw [removeTotal_eq]
  cases hb : t.bytesOf i with
  | nil =>
    have : (t.removeDataOf i).bytesOf i = [] := by simp [Tag.bytesOf, C04_remove]
    simp [Tag.getNumber, hb, this]
  | cons v r =>
    rw [hb] at h
    simp [Tag.getNumber, hb, h, tupNumber_setTotal v 0 (hl v r hb)]

/-- **C20.** `remove_track` makes both absent and leaves no entry; others are unaffected. -/
theorem C20_remove_pair (t : Tag) (i j : Ident) (hj : j.toData ≠ i.toData) :
    (t.removePair i).getPair i = (none, none) ∧ i.toData ∉ (t.removePair i).abs.keys ∧
    (t.removePair i).dataOf j = t.dataOf j ∧ (t.removeNumber i).dataOf j = t.dataOf j ∧
    (t.removeTotal i).dataOf j = t.dataOf j := by
  refine ⟨?_, C04_remove_entry t i, ?_, ?_, ?_⟩
  · simp [Tag.getPair, Tag.removePair, Tag.bytesOf, C04_remove]
  · simp [Tag.removePair, C04_remove, hj]
  · rw [removeNumber_eq]; split
    · simp [C04_remove, hj]
    · exact (firstBytes_effect t i _ _).2.1 j hj
  · rw [removeTotal_eq]; split
    · simp [C04_remove, hj]
    · exact (firstBytes_effect t i _ _).2.1 j hj

/-- **C20, refutation.** Removing number and total, in either order, leaves a track entry in the tag. -/
theorem C20_refuted_entry_remains : ∃ t : Tag, t.NoDup ∧
    ((t.removeNumber trackI).removeTotal trackI).getPair trackI = (none, none) ∧
    trackI.toData ∈ ((t.removeNumber trackI).removeTotal trackI).abs.keys ∧
    trackI.toData ∈ ((t.removeTotal trackI).removeNumber trackI).abs.keys :=
  ⟨({} : Tag).setPair trackI 3 5, by decide⟩

/-- **C20, refutation.** In fact the entry always remains if a byte value was stored. -/
theorem C20_entry_always_remains (t : Tag) (i : Ident) (h : t.bytesOf i ≠ []) :
    (t.removeNumber i).dataOf i ≠ [] ∧ (t.removeTotal i).dataOf i ≠ [] := by
  have key : ∀ t' : Tag, t'.bytesOf i ≠ [] → t'.dataOf i ≠ [] := by
    intro t' h' he; apply h'; simp [Tag.bytesOf, he]
  constructor
  · apply key
    have := (firstBytes_effect t i (fun v => tupSetNumber v 0) (.reserved [])).1
    rw [removeNumber_eq, if_neg h]
    cases hb : t.bytesOf i with
    | nil => exact absurd hb h
    | cons v r => rw [hb] at this; rw [this]; simp
  · apply key
    have := (firstBytes_effect t i (fun v => tupSetTotal v 0) (.reserved [])).1
    rw [removeTotal_eq, if_neg h]
    cases hb : t.bytesOf i with
    | nil => exact absurd hb h
    | cons v r => rw [hb] at this; rw [this]; simp

/-- **C20, refutation.** With three stored bytes removing the total creates a number. -/
theorem C20_refuted_preserve : ∃ t : Tag, t.NoDup ∧ t.getNumber trackI = none ∧
    (t.removeTotal trackI).getNumber trackI = some 256 :=
  ⟨{ atoms := [⟨.fourcc TRACK_NUMBER, [.reserved [0, 0, 1]]⟩] }, by decide⟩

/-! ### C21 -/

theorem code_stored (c : Nat) (h : c < 65536) : stdGenreCode (toBe 2 c) = some c := by
  have hl : (toBe 2 c).length = 2 := toBe_length 2 c
  rw [stdGenreCode, hl, if_neg (by omega)]
  have : [(toBe 2 c).getD 0 0, (toBe 2 c).getD 1 0] = toBe 2 c := by
    generalize toBe 2 c = l at hl
    rcases l with _ | ⟨a, _ | ⟨b, _ | ⟨x, l⟩⟩⟩ <;> simp_all
  rw [this, beNat_toBe_of_lt _ _ (by simpa using h)]

theorem codes_stored (cs : List Nat) (h : ∀ c ∈ cs, c < 65536) :
    ((cs.map fun c => Data.reserved (toBe 2 c)).filterMap Data.bytes?).filterMap stdGenreCode = cs := by
  induction cs with
  | nil => rfl
  | cons c cs ih =>
    have := ih fun x hx => h x (by simp [hx])
    rw [List.map_cons, List.filterMap_cons_some (b := toBe 2 c) (by rfl),
      List.filterMap_cons_some (code_stored c (h c (by simp))),
      this]

/-- **C21.** Setting and adding codes. -/
theorem C21_set_add (t : Tag) (c : Nat) (cs : List Nat) (hc : c < 65536) (hcs : ∀ c ∈ cs, c < 65536) :
    (t.setStandardGenre c).standardGenres = [c] ∧ (t.setStandardGenres cs).standardGenres = cs ∧
    (t.addStandardGenre c).standardGenres = t.standardGenres ++ [c] ∧
    (t.addStandardGenres cs).standardGenres = t.standardGenres ++ cs := by
  refine ⟨?_, ?_, ?_, ?_⟩
  · simp [Tag.setStandardGenre, Tag.standardGenres, set_bytesOf, Data.bytes?, code_stored c hc]
  · simp only [Tag.setStandardGenres, Tag.standardGenres, Tag.bytesOf, C02_set_all, if_true]
    exact codes_stored cs hcs
  · simp [Tag.addStandardGenre, Tag.standardGenres, Tag.bytesOf, C03_add, Data.bytes?, code_stored c hc]
  · simp only [Tag.addStandardGenres, Tag.standardGenres, Tag.bytesOf, C03_add_all, if_true,
      List.filterMap_append]
    rw [codes_stored cs hcs]

/-- **C21.** What is read: of every byte value with at least two bytes the first two, most significant
first; shorter values are skipped; `standard_genre()` is the first. -/
theorem C21_get (t : Tag) :
    t.standardGenres = (t.bytesOf (.fourcc STANDARD_GENRE)).filterMap (fun v => match v with
      | a :: b :: _ => some (a.toNat * 256 + b.toNat)
      | _ => none) ∧
    t.standardGenre = t.standardGenres.head? := by
  refine ⟨?_, rfl⟩
  simp only [Tag.standardGenres]
  congr 1
  funext v
  rcases v with _ | ⟨a, _ | ⟨b, v⟩⟩ <;> simp [stdGenreCode, beNat]

/-- **C21.** Code `c` names entry `c - 1` of the table for `1 ≤ c ≤ 80` and nothing otherwise. -/
theorem C21_names (c : Nat) :
    STANDARD_GENRES.length = 80 ∧
    (∀ h : 1 ≤ c ∧ c ≤ 80, stdGenreName c = some (STANDARD_GENRES[c - 1]'(by
      have : STANDARD_GENRES.length = 80 := by decide
      omega)).toList) ∧
    (¬ (1 ≤ c ∧ c ≤ 80) → stdGenreName c = none) := by
  have hl : STANDARD_GENRES.length = 80 := by decide
  refine ⟨hl, ?_, ?_⟩
  · intro h
    rw [stdGenreName, if_pos (by omega), List.getElem?_eq_getElem (by omega)]; rfl
  · intro h
    rw [stdGenreName, hl, if_neg (by omega)]

/-- **C21.** Removal and other identifiers. -/
theorem C21_remove (t : Tag) (j : Ident) (hj : j.toData ≠ .fourcc STANDARD_GENRE) (c : Nat) (cs : List Nat) :
    t.removeStandardGenres.standardGenres = [] ∧ t.removeStandardGenres.dataOf j = t.dataOf j ∧
    (t.setStandardGenre c).dataOf j = t.dataOf j ∧ (t.setStandardGenres cs).dataOf j = t.dataOf j ∧
    (t.addStandardGenre c).dataOf j = t.dataOf j ∧ (t.addStandardGenres cs).dataOf j = t.dataOf j := by
  simp [Tag.removeStandardGenres, Tag.standardGenres, Tag.bytesOf, C04_remove, Tag.setStandardGenre,
    Tag.setStandardGenres, Tag.addStandardGenre, Tag.addStandardGenres, C02_set, C02_set_all, C03_add,
    C03_add_all, toData_fourcc, hj]

example : (sampleTag.setStandardGenres [1, 80, 0, 65535]).standardGenres = [1, 80, 0, 65535] := by decide

/-! ### C22 -/

/-- **C22.** `genres()`: the names of the valid standard codes in order, then the custom genres. -/
theorem C22_genres (t : Tag) : t.genres
    = (t.standardGenres.filter (fun c => 1 ≤ c ∧ c ≤ 80)).map (fun c => (STANDARD_GENRES.getD (c - 1) "").toList)
      ++ t.stringsOf (.fourcc CUSTOM_GENRE) := by
  simp only [Tag.genres, Tag.getStrings, customGenreI]
  congr 1
  generalize t.standardGenres = cs
  induction cs with
  | nil => rfl
  | cons c cs ih =>
    have hl : STANDARD_GENRES.length = 80 := by decide
    by_cases h : 1 ≤ c ∧ c ≤ 80
    · have hg : stdGenreName c = some (STANDARD_GENRES.getD (c - 1) "").toList := by
        rw [stdGenreName, hl, if_pos (by omega), List.getD_eq_getElem?_getD,
          List.getElem?_eq_getElem (by omega)]; rfl
      simp [hg, h, ih]
    · simp [(C21_names c).2.2 h, h, ih]

/-- **C22, partial.** `genre()` is the first of `genres()`, provided the first standard code is valid or
no standard code is. Full statement: without `h`; false, see `C22_refuted`. -/
theorem C22_genre_first_partial (t : Tag)
    (h : t.standardGenres.filterMap stdGenreName = [] ∨
      ∃ c r, t.standardGenres = c :: r ∧ 1 ≤ c ∧ c ≤ 80) :
    t.genre = t.genres.head? := by
  simp only [Tag.genre, Tag.genres, Tag.standardGenre]
  rcases h with h | ⟨c, r, h, hc⟩
  · rw [h]
    cases hs : t.standardGenres with
    | nil => simp [Tag.getString, Tag.getStrings]
    | cons c r =>
      rw [hs] at h
      have : stdGenreName c = none := by
        rw [List.filterMap_eq_nil_iff] at h; exact h c (by simp)
      simp [this, Tag.getString, Tag.getStrings]
  · obtain ⟨g, hg⟩ := Option.isSome_iff_exists.mp (by rw [stdGenreName_isSome]; simpa using hc :
      (stdGenreName c).isSome)
    simp [h, hg]

/-- **C22, refutation.** With standard codes 0 and 1, `genres()` starts with "Blues" but `genre()` is
absent. -/
theorem C22_refuted : ∃ t : Tag, t.NoDup ∧ t.genres = ["Blues".toList] ∧ t.genre = none :=
  ⟨({} : Tag).setStandardGenres [0, 1], by decide⟩

example : ((({} : Tag).setStandardGenres [4, 200]).addGenre "x".toList).genre = some "Dance".toList := by
  decide

/-! ### C23 -/

/-- **C23.** `set_genre`, `set_genres`, `remove_genres`. -/
theorem C23_set_remove (t : Tag) (s : Str) (l : List Str) :
    (t.setGenre s).genres = [s] ∧ (t.setGenre s).standardGenres = [] ∧
    (t.setGenres l).genres = l ∧ (t.setGenres l).standardGenres = [] ∧ t.removeGenres.genres = [] := by
  have hne : (Ident.fourcc CUSTOM_GENRE).toData ≠ (Ident.fourcc STANDARD_GENRE).toData := by decide
  have hne' : (Ident.fourcc STANDARD_GENRE).toData ≠ (Ident.fourcc CUSTOM_GENRE).toData := by decide
  simp [Tag.setGenre, Tag.setGenres, Tag.removeGenres, Tag.genres, Tag.standardGenres, Tag.bytesOf,
    Tag.removeStandardGenres, Tag.getStrings, Tag.stringsOf, C04_remove, customGenreI, hne, hne',
    Tag.setString, Tag.setStrings, C02_set, C02_set_all, Data.string?, map_utf8_strings', Tag.removeValue]

/-- **C23.** `add_genre` appends to the custom genres. -/
theorem C23_add (t : Tag) (s : Str) : (t.addGenre s).genres = t.genres ++ [s] := by
  have hne' : (Ident.fourcc STANDARD_GENRE).toData ≠ (Ident.fourcc CUSTOM_GENRE).toData := by decide
  simp [Tag.addGenre, Tag.genres, Tag.standardGenres, Tag.bytesOf, Tag.getStrings, Tag.stringsOf,
    customGenreI, Tag.addString, C03_add, Data.string?, hne']

/-- **C23.** `take_genres` returns `genres()` and removes all custom genres. -/
theorem C23_take_genres (t : Tag) (h : t.NoDup) :
    t.takeGenres.1 = t.genres ∧ t.takeGenres.2.stringsOf (.fourcc CUSTOM_GENRE) = [] ∧
    t.takeGenres.2.standardGenres = t.standardGenres := by
  have hne' : (Ident.fourcc STANDARD_GENRE).toData ≠ (Ident.fourcc CUSTOM_GENRE).toData := by decide
  refine ⟨?_, ?_, ?_⟩
  · simp [Tag.takeGenres, Tag.genres, Tag.getStrings, Tag.takeStringValues, (C05_take_kinds t _).2.1]
  · simp [Tag.takeGenres, Tag.takeStringValues, Tag.takeStringsOf, Tag.stringsOf,
      C05_take_removes t _ _ h, customGenreI]
  · simp [Tag.takeGenres, Tag.takeStringValues, Tag.takeStringsOf, Tag.standardGenres, Tag.bytesOf,
      C05_take_removes t _ _ h, customGenreI, hne']

/-- **C23.** `take_genre` returns `genre()`. -/
theorem C23_take_genre_returns (t : Tag) : t.takeGenre.1 = t.genre := by
  simp only [Tag.takeGenre, Tag.genre]
  cases t.standardGenre.bind stdGenreName with
  | some g => rfl
  | none => simp [Tag.takeString, Tag.getString, (C05_take_kinds t _).2.1]

/-- **C23, partial.** `take_genre` removes all custom genres, provided the tag has no valid first standard
genre. Full statement: without `hs`; false, see `C23_refuted`. -/
theorem C23_take_genre_removes_partial (t : Tag) (h : t.NoDup)
    (hs : ∀ c, t.standardGenre = some c → ¬ (1 ≤ c ∧ c ≤ 80)) :
    t.takeGenre.2.stringsOf (.fourcc CUSTOM_GENRE) = [] := by
  have hn : t.standardGenre.bind stdGenreName = none := by
    cases hc : t.standardGenre with
    | none => rfl
    | some c => exact (C21_names c).2.2 (hs c hc)
  simp [Tag.takeGenre, hn, Tag.takeString, Tag.takeStringsOf, Tag.stringsOf, C05_take_removes t _ _ h,
    customGenreI]

/-- **C23, refutation.** Documented as "removes all custom genres and returns the first genre", `take_genre`
leaves the custom genres in place if there is a standard genre. -/
theorem C23_refuted : ∃ t : Tag, t.NoDup ∧
    t.takeGenre.2.stringsOf (.fourcc CUSTOM_GENRE) = ["custom".toList] :=
  ⟨(({} : Tag).setStandardGenre 1).addGenre "custom".toList, by decide⟩

/-- **C23.** Other identifiers are unaffected by all genre operations. -/
theorem C23_others (t : Tag) (h : t.NoDup) (j : Ident) (h1 : j.toData ≠ .fourcc STANDARD_GENRE)
    (h2 : j.toData ≠ .fourcc CUSTOM_GENRE) (s : Str) (l : List Str) :
    (t.setGenre s).dataOf j = t.dataOf j ∧ (t.setGenres l).dataOf j = t.dataOf j ∧
    (t.addGenre s).dataOf j = t.dataOf j ∧ t.removeGenres.dataOf j = t.dataOf j ∧
    t.takeGenres.2.dataOf j = t.dataOf j ∧ t.takeGenre.2.dataOf j = t.dataOf j := by
  refine ⟨?_, ?_, ?_, ?_, ?_, ?_⟩
  · simp [Tag.setGenre, Tag.removeStandardGenres, C04_remove, Tag.setString, C02_set, customGenreI,
      toData_fourcc, h1, h2]
  · simp [Tag.setGenres, Tag.removeStandardGenres, C04_remove, Tag.setStrings, C02_set_all, customGenreI,
      toData_fourcc, h1, h2]
  · simp [Tag.addGenre, Tag.addString, C03_add, customGenreI, toData_fourcc, h2]
  · simp [Tag.removeGenres, Tag.removeStandardGenres, Tag.removeValue, C04_remove, customGenreI,
      toData_fourcc, h1, h2]
  · simp [Tag.takeGenres, Tag.takeStringValues, Tag.takeStringsOf, C05_take_removes t _ _ h, customGenreI,
      toData_fourcc, h2]
  · simp only [Tag.takeGenre]
    split
    · rfl
    · simp [Tag.takeString, Tag.takeStringsOf, C05_take_removes t _ _ h, customGenreI, toData_fourcc, h2]

example : (sampleTag.setGenres ["p".toList, "q".toList]).genres = ["p".toList, "q".toList] := by decide

end Mp4.Props
