import Verif.Model.Kind
import Verif.Props.Write
import Verif.Props.TagMap
/-
C68, C69: comparing identifiers, kinds of values.
-/
namespace Mp4.Props
open Mp4 Spec

/-! ### C68 -/

/-- **C68.** `idents_match` holds of two identifiers, in whatever form, exactly if they denote the same
identifier of a tag. -/
theorem C68_idents_match (a b : Ident) : identsMatch a b = true ↔ a.toData = b.toData := by
  rcases a with f | ⟨m, n⟩ | (f | ⟨m, n⟩) <;> rcases b with g | ⟨m', n'⟩ | (g | ⟨m', n'⟩) <;>
    simp [identsMatch, Ident.fourcc?, Ident.freeform?, Ident.toData]

/-- **C68.** Comparison with the identifier of an entry (`==`) agrees with it. -/
theorem C68_eq (a : Ident) (d : DataIdent) : a.matches d = identsMatch a (.data d) := by
  rw [Bool.eq_iff_iff, C68_idents_match]
  rcases a with f | ⟨m, n⟩ | (f | ⟨m, n⟩) <;> rcases d with g | ⟨m', n'⟩ <;> simp [Ident.matches, Ident.toData]

/-- **C68.** Two identifiers match exactly if they cannot be told apart by storing a value under one
and looking it up under the other. -/
theorem C68_observable (a b : Ident) :
    identsMatch a b = true ↔ ∀ (t : Tag) (ds : List Data), (t.setAllData a ds).dataOf b = ds := by
  rw [C68_idents_match]
  constructor
  · intro h t ds
    rw [C02_set_all, if_pos h.symm]
  · intro h
    have := h {} [.reserved []]
    rw [C02_set_all] at this
    split at this
    · rename_i hh; exact hh.symm
    · cases this

example : identsMatch (.freeform ISRC) (.data (.freeform APPLE_ITUNES_MEAN "ISRC".toList)) = true ∧
    identsMatch (.freeform ISRC) (.freeform LYRICIST) = false ∧
    identsMatch (.fourcc TITLE) (.data (.fourcc TITLE)) = true ∧
    identsMatch (.fourcc TITLE) (.freeform ISRC) = false := by decide +kernel

/-! ### C69 -/

/-- **C69.** The predicates ask for the type code under which a value is stored in a file. -/
theorem C69_predicates (c : Nat) (b : Bytes) (d : Data) (h : ValueEnc c b d) :
    (d.isReserved = true ↔ c = 0) ∧ (d.isUtf8 = true ↔ c = 1) ∧ (d.isUtf16 = true ↔ c = 2) ∧
    (d.isJpeg = true ↔ c = 13) ∧ (d.isPng = true ↔ c = 14) ∧ (d.isBeSigned = true ↔ c = 21) ∧
    (d.isBmp = true ↔ c = 27) ∧ (d.isBytes = true ↔ c = 0 ∨ c = 21) ∧ (d.isString = true ↔ c = 1 ∨ c = 2) ∧
    (d.isImage = true ↔ c = 13 ∨ c = 14 ∨ c = 27) := by
  cases h <;> simp [Data.isReserved, Data.isUtf8, Data.isUtf16, Data.isJpeg, Data.isPng, Data.isBeSigned, Data.isBmp,
    Data.isBytes, Data.isString, Data.isImage]

/-- **C69.** The getters of bytes return the stored bytes if the type code is theirs. -/
theorem C69_bytes (c : Nat) (b : Bytes) (d : Data) (h : ValueEnc c b d) :
    d.reserved? = (if c = 0 then some b else none) ∧ d.beSigned? = (if c = 21 then some b else none) ∧
    d.jpeg? = (if c = 13 then some b else none) ∧ d.png? = (if c = 14 then some b else none) ∧
    d.bmp? = (if c = 27 then some b else none) ∧ d.bytes? = (if c = 0 ∨ c = 21 then some b else none) ∧
    d.imageData? = (if c = 13 ∨ c = 14 ∨ c = 27 then some b else none) := by
  cases h <;> simp [Data.reserved?, Data.beSigned?, Data.jpeg?, Data.png?, Data.bmp?, Data.bytes?, Data.imageData?, Data.image?]

/-- **C69.** The getters of text return a text of which the stored bytes are the encoding. (For UTF-16,
a last odd byte is ignored.) -/
theorem C69_text (c : Nat) (b : Bytes) (d : Data) (h : ValueEnc c b d) :
    (∀ s, d.utf8? = some s ↔ c = 1 ∧ utf8 s = b) ∧ (d.utf16?.isSome = true ↔ c = 2) ∧
    (∀ s, d.utf16? = some s → utf16be s = b.take (utf16be s).length ∧ b.length ≤ (utf16be s).length + 1) ∧
    (∀ s, d.string? = some s ↔ d.utf8? = some s ∨ d.utf16? = some s) := by
  cases h with
  | utf8 s =>
    refine ⟨fun u => ?_, by simp [Data.utf16?], by simp [Data.utf16?], by simp [Data.utf8?, Data.utf16?, Data.string?]⟩
    simp only [Data.utf8?, Option.some.injEq, true_and]
    exact ⟨fun h => by rw [h], fun h => (C24_injective _ _ h).symm⟩
  | utf16 s odd ho =>
    refine ⟨by simp [Data.utf8?], by simp [Data.utf16?], ?_, by simp [Data.utf8?, Data.utf16?, Data.string?]⟩
    intro u hu
    cases hu
    simp only [List.take_left, List.length_append, true_and]
    omega
  | _ => simp [Data.utf8?, Data.utf16?, Data.string?]

/-- **C69.** Images: converting to a value and back yields the image, and the other way round. The
format is that of the type code. -/
theorem C69_images (i : Img) (d : Data) :
    (Data.ofImg i).image? = some i ∧ (d.image? = some i ↔ d = Data.ofImg i) ∧
    (i.fmt.isBmp = (Data.ofImg i).isBmp ∧ i.fmt.isJpeg = (Data.ofImg i).isJpeg ∧ i.fmt.isPng = (Data.ofImg i).isPng) ∧
    (i = Img.ofBmp i.data ↔ i.fmt.isBmp = true) ∧ (i = Img.ofJpeg i.data ↔ i.fmt.isJpeg = true) ∧
    (i = Img.ofPng i.data ↔ i.fmt.isPng = true) := by
  obtain ⟨f, v⟩ := i
  cases f <;> cases d <;>
    simp [Data.ofImg, Data.image?, ImgFmt.isBmp, ImgFmt.isJpeg, ImgFmt.isPng, Data.isBmp, Data.isJpeg, Data.isPng, Img.ofBmp,
      Img.ofJpeg, Img.ofPng, eq_comm]

/-- **C69.** Changing a value through a reference keeps its type code; what the getter returns is changed
as requested, and other values are not changed at all. -/
theorem C69_mutation (d : Data) (f : Bytes → Bytes) (g : Str → Str) :
    (typeCode (d.modBytes f) = typeCode d ∧ (d.modBytes f).bytes? = d.bytes?.map f ∧ (d.bytes? = none → d.modBytes f = d)) ∧
    (typeCode (d.modString g) = typeCode d ∧ (d.modString g).string? = d.string?.map g ∧ (d.string? = none → d.modString g = d)) ∧
    (typeCode (d.modImageData f) = typeCode d ∧ (d.modImageData f).imageData? = d.imageData?.map f ∧
      (d.imageData? = none → d.modImageData f = d)) := by
  cases d <;> simp [Data.modBytes, Data.modString, Data.modImageData, Data.modImage, Data.bytes?, Data.string?, Data.imageData?,
    Data.image?, typeCode]

/-- A value read from a file, and its getters. -/
example : ValueEnc 13 [1, 2] (.jpeg [1, 2]) ∧ (Data.jpeg [1, 2]).image? = some ⟨.jpeg, [1, 2]⟩ ∧
    ((Data.jpeg [1, 2]).modImageData (· ++ [3])).jpeg? = some [1, 2, 3] := ⟨.jpeg _, rfl, rfl⟩
example : ValueEnc 2 [0, 0x61, 9] (.utf16 ['a']) ∧ (Data.utf16 ['a']).string? = some ['a'] ∧ (Data.utf16 ['a']).utf8? = none :=
  ⟨.utf16 ['a'] [9] (by decide), rfl, rfl⟩

end Mp4.Props
