import Verif.Proof.Emit
/-
C24, C25, C27: text values and value lengths.
-/
namespace Mp4.Props
open Mp4 Spec

/-- An environment for concrete cases. -/
def env0 : Env := { checked := true, fuel := 1000, maxPos := 2^63 - 1, cap := 8192, rcur := fun _ => 0 }

/-- The bytes written for a value, and the outcome. -/
def dataBytes (d : Data) (e : Env) : Bytes × Out Unit := ((d.writeRaw e).1.flatten, (d.writeRaw e).2)

/-! ### C24 -/

/-- **C24.** A UTF-8 value is written as the UTF-8 bytes of the string, and these read as the string,
wherever they are in the stream. -/
theorem C24_roundtrip (e : Env) (X Y : Bytes) (s : Str) (hl : (utf8 s).length < 2^63) :
    dataBytes (.utf8 s) e = (utf8 s, .ok ()) ∧
    Data.parse 1 (utf8 s).length e (X ++ utf8 s ++ Y) X.length
      = .ok (.utf8 s, X.length + (utf8 s).length) := by
  refine ⟨(writeRaw_emits (.utf8 s)).apply e, ?_⟩
  exact dataParse_at (ValueEnc.utf8 s) (At_intro X _ Y) rfl hl e

/-- **C24.** Exactly the encodings of strings are accepted; everything else is a UTF-8 decoding error. -/
theorem C24_accept_iff (e : Env) (X b Y : Bytes) (hl : b.length < 2^63) :
    (∀ s, utf8 s = b → Data.parse 1 b.length e (X ++ b ++ Y) X.length = .ok (.utf8 s, X.length + b.length)) ∧
    ((∀ s, utf8 s ≠ b) → Data.parse 1 b.length e (X ++ b ++ Y) X.length = .err .utf8StringDecoding) := by
  refine ⟨fun s hs => ?_, fun h => ?_⟩
  · subst hs; exact (C24_roundtrip e X Y s hl).2
  · have hn : utf8Dec b = none := by
      cases hd : utf8Dec b with
      | none => rfl
      | some s => exact absurd ((utf8Enc_spec s).symm.trans (utf8Dec_inv b s hd)) (h s)
    have hr : readUtf8 b.length e (X ++ b ++ Y) X.length = .err .utf8StringDecoding := by
      rw [readUtf8, P.bind_ok (readU8Vec_at (At_intro X b Y) rfl hl e), hn]; rfl
    show (readUtf8 b.length >>= _) e (X ++ b ++ Y) X.length = _
    rw [P.bind_apply, hr]

/-- **C24.** Encodings are unambiguous. -/
theorem C24_injective (s t : Str) (h : utf8 s = utf8 t) : s = t := by
  rw [← utf8Enc_spec, ← utf8Enc_spec] at h
  have h1 := utf8Dec_enc s
  rw [h, utf8Dec_enc] at h1
  exact (Option.some.inj h1).symm

example : utf8 ['a', 'é', '€', '😀'] = [0x61, 0xC3, 0xA9, 0xE2, 0x82, 0xAC, 0xF0, 0x9F, 0x98, 0x80]
    ∧ Data.parse 1 3 env0 [9, 0xE2, 0x82, 0xAC] 1 = .ok (.utf8 ['€'], 4)
    ∧ Data.parse 1 2 env0 [9, 0xC0, 0x80] 1 = .err .utf8StringDecoding
    ∧ Data.parse 1 3 env0 [0xED, 0xA0, 0x80] 0 = .err .utf8StringDecoding := by decide

/-! ### C25 -/

/-- **C25.** A UTF-16 value is written as the big endian UTF-16 bytes of the string, and these read as
the string; an odd trailing byte is ignored. -/
theorem C25_roundtrip (e : Env) (X Y : Bytes) (s : Str) (odd : Bytes) (ho : odd.length ≤ 1)
    (hl : (utf16be s ++ odd).length < 2^63) :
    dataBytes (.utf16 s) e = (utf16be s, .ok ()) ∧
    Data.parse 2 (utf16be s ++ odd).length e (X ++ (utf16be s ++ odd) ++ Y) X.length
      = .ok (.utf16 s, X.length + (utf16be s ++ odd).length) := by
  refine ⟨(writeRaw_emits (.utf16 s)).apply e, ?_⟩
  exact dataParse_at (ValueEnc.utf16 s odd ho) (At_intro X _ Y) rfl hl e

theorem units16_append_odd (b odd : Bytes) (h : b.length % 2 = 0) (ho : odd.length ≤ 1) :
    units16 (b ++ odd) = units16 b := by
  have := units16_be16 (units16 b) odd (units16_lt b)
  rw [be16_units16 b h, units16_odd ho, List.append_nil] at this
  exact this

/-- **C25.** Exactly the encodings of strings, with at most one odd trailing byte, are accepted;
everything else (unpaired surrogates) is a UTF-16 decoding error. -/
theorem C25_accept_iff (e : Env) (X b Y : Bytes) (hl : b.length < 2^63) :
    (∀ s odd, odd.length ≤ 1 → utf16be s ++ odd = b →
      Data.parse 2 b.length e (X ++ b ++ Y) X.length = .ok (.utf16 s, X.length + b.length)) ∧
    ((∀ s odd, odd.length ≤ 1 → utf16be s ++ odd ≠ b) →
      Data.parse 2 b.length e (X ++ b ++ Y) X.length = .err .utf16StringDecoding) := by
  refine ⟨fun s odd ho hs => ?_, fun h => ?_⟩
  · subst hs; exact (C25_roundtrip e X Y s odd ho hl).2
  · have hn : utf16Dec (units16 b) = none := by
      cases hd : utf16Dec (units16 b) with
      | none => rfl
      | some s =>
        have hsplit : b = b.take (b.length / 2 * 2) ++ b.drop (b.length / 2 * 2) := (List.take_append_drop _ b).symm
        have hodd : (b.drop (b.length / 2 * 2)).length ≤ 1 := by rw [List.length_drop]; omega
        have heven : (b.take (b.length / 2 * 2)).length % 2 = 0 := by rw [List.length_take]; omega
        have hu := units16_append_odd _ _ heven hodd
        rw [← hsplit] at hu
        have hs := utf16Dec_inv _ s (units16_lt b) hd
        refine absurd ?_ (h s _ hodd)
        rw [utf16be_spec, hs, hu, be16_units16 _ heven, ← hsplit]
    have ha : (allocU8 b.length) e = .ok () := by rw [allocU8, if_neg (by omega)]
    have hr : readUtf16 b.length e (X ++ b ++ Y) X.length = .err .utf16StringDecoding := by
      rw [readUtf16, P.bind_ok (E.p_ok ha _ _), P.bind_ok (readExact_at' (At_intro X b Y) rfl e), hn]; rfl
    show (readUtf16 b.length >>= _) e (X ++ b ++ Y) X.length = _
    rw [P.bind_apply, hr]

example : utf16be ['a', '€', '😀'] = [0, 0x61, 0x20, 0xAC, 0xD8, 0x3D, 0xDE, 0x00]
    ∧ Data.parse 2 5 env0 [0xD8, 0x3D, 0xDE, 0x00, 7] 0 = .ok (.utf16 ['😀'], 5)
    ∧ Data.parse 2 4 env0 [0xDE, 0x00, 0xD8, 0x3D] 0 = .err .utf16StringDecoding
    ∧ Data.parse 2 2 env0 [0xD8, 0x3D] 0 = .err .utf16StringDecoding := by decide

/-! ### C27 -/

/-- The statement of C27 for one value. -/
def LenOk (d : Data) : Prop := ∀ e, (d.writeRaw e).1.flatten.length = d.len

theorem rawBytes (d : Data) (e : Env) : (d.writeRaw e).1.flatten = payload d := by
  have := (writeRaw_emits d).apply e
  exact (Prod.mk.inj this).1

/-- **C27.** `len` is the number of bytes written for every value that is not UTF-16 text. Missing: UTF-16
values, where it is false (`C27_refuted`). -/
theorem C27_len_partial (d : Data) (h : noUtf16Text d) : LenOk d := by
  intro e; rw [rawBytes, dataLen_eq h]

theorem utf16be_length (s : Str) : (utf16be s).length = 2 * (utf16Enc s).length := by
  have : ∀ u : List Nat, (u.flatMap Spec.be16).length = 2 * u.length := by
    intro u
    induction u with
    | nil => rfl
    | cons x u ih => rw [List.flatMap_cons, List.length_append, ih, List.length_cons, Spec.be16]; simp; omega
  exact this (utf16 s)

/-- **C27 is false of the code for UTF-16 values**: twice as many bytes as `len` says are written. -/
theorem C27_refuted (s : Str) (e : Env) : ((Data.utf16 s).writeRaw e).1.flatten.length = 2 * (Data.utf16 s).len := by
  rw [rawBytes]; exact utf16be_length s

/-- **C27.** Hence `len` of a UTF-16 value is wrong for every non-empty string. -/
theorem C27_refuted_iff (s : Str) : LenOk (.utf16 s) ↔ s = [] := by
  have h := C27_refuted s
  constructor
  · intro hl
    have h1 := hl env0
    rw [h env0] at h1
    cases s with
    | nil => rfl
    | cons c s =>
      have : 0 < (Data.utf16 (c :: s)).len := by
        show 0 < (utf16Enc (c :: s)).length
        have : 0 < (utf16EncChar c).length := by unfold utf16EncChar; simp only; split <;> simp
        simp only [utf16Enc, List.flatMap_cons, List.length_append]; omega
      omega
  · rintro rfl e; rfl

/-- **C27.** `is_empty` holds exactly if nothing is written, for every value. -/
theorem C27_isEmpty (d : Data) (e : Env) : d.isEmpty = true ↔ (d.writeRaw e).1.flatten = [] := by
  rw [rawBytes, ← List.length_eq_zero_iff, Data.isEmpty, beq_iff_eq]
  cases d with
  | utf16 s =>
    show (utf16Enc s).length = 0 ↔ (utf16be s).length = 0
    rw [utf16be_length]; omega
  | utf8 s => rw [dataLen_eq (d := .utf8 s) trivial]
  | _ => rfl

example : (Data.utf8 ['€']).len = 3 ∧ (Data.utf16 ['a', 'b']).len = 2
    ∧ ((Data.utf16 ['a', 'b']).writeRaw env0).1.flatten = [0, 97, 0, 98] := by decide

/-- **C27** for items: `is_empty` holds iff no byte is stored besides the heads, the names and the type codes. -/
theorem C27_item (a : AtomData) (e : Env) : a.isEmpty = true ↔ a.data.flatMap (fun d => (d.writeRaw e).1.flatten) = [] := by
  rw [List.flatMap_eq_nil_iff, AtomData.isEmpty, Bool.or_eq_true, List.isEmpty_iff, List.all_eq_true]
  constructor
  · rintro (h | h) d hd
    · rw [h] at hd; cases hd
    · exact (C27_isEmpty d e).mp (h d hd)
  · exact fun h => .inr fun d hd => (C27_isEmpty d e).mpr (h d hd)

/-- **C27** for items: the length is that of the same item with empty values exactly if it is empty. -/
theorem C27_item_len (a : AtomData) : a.isEmpty = true ↔ a.len = AtomData.len { a with data := a.data.map fun _ => .reserved [] } := by
  have h : ∀ l : List Data, (l.map fun d => 16 + d.len).sum = ((l.map fun _ => Data.reserved []).map fun d => 16 + d.len).sum + (l.map Data.len).sum := by
    intro l
    induction l with
    | nil => rfl
    | cons d l ih =>
      simp only [List.map_cons, List.sum_cons, ih]
      have : (Data.reserved []).len = 0 := rfl
      omega
  have h0 : (a.data.map Data.len).sum = 0 ↔ ∀ d ∈ a.data, d.isEmpty = true := by
    rw [List.sum_eq_zero_iff_forall_eq_nat]
    simp [Data.isEmpty]
  have h1 : a.isEmpty = true ↔ (a.data.map Data.len).sum = 0 := by
    rw [h0, AtomData.isEmpty, Bool.or_eq_true, List.isEmpty_iff, List.all_eq_true]
    exact ⟨fun h => h.elim (fun h d hd => by rw [h] at hd; cases hd) id, .inr⟩
  rw [h1]
  obtain ⟨i, l⟩ := a
  have := h l
  cases i <;> simp only [AtomData.len] <;> omega

example : (AtomData.mk (.fourcc (cc '©' 'n' 'a' 'm')) [.utf8 [], .jpeg []]).isEmpty = true ∧
    (AtomData.mk (.freeform ['m'] ['n']) [.utf8 [], .utf16 ['a']]).isEmpty = false ∧
    (AtomData.mk (.fourcc (cc '©' 'n' 'a' 'm')) []).isEmpty = true := by decide

end Mp4.Props
