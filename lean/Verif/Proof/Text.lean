import Verif.Model.Data
import Verif.Proof.Bytes
/-
Round trips of the text codecs.
-/
namespace Mp4

/-- A Unicode scalar value. -/
def IsScalar (n : Nat) : Prop := n < 0xD800 ∨ (0xDFFF < n ∧ n < 0x110000)

theorem char_scalar (c : Char) : IsScalar c.toNat := c.valid

theorem toNat_ofNat_scalar (n : Nat) (h : IsScalar n) : (Char.ofNat n).toNat = n := by
  have h' : Nat.isValidChar n := h
  rw [Char.ofNat, dif_pos h']
  simp [Char.ofNatAux, Char.toNat]

theorem u8_ofNat (n : Nat) (h : n < 256) : (UInt8.ofNat n).toNat = n := by
  simp [UInt8.toNat_ofNat', Nat.mod_eq_of_lt h]

theorem u8_eq (b : UInt8) (n : Nat) (h : b.toNat = n) : UInt8.ofNat n = b := by
  subst h; simp

theorem isCont_iff (n : Nat) : isCont n = true ↔ 0x80 ≤ n ∧ n ≤ 0xBF := by simp [isCont]

theorem utf8Step_enc (c : Char) (t : Bytes) : utf8Step (utf8EncChar c ++ t) = some (c.toNat, t) := by
  have hs := char_scalar c
  unfold IsScalar at hs
  generalize hn : c.toNat = n at hs
  simp only [utf8EncChar, hn]
  by_cases h1 : n < 0x80
  · rw [if_pos h1]
    simp only [List.cons_append, List.nil_append, utf8Step]
    rw [u8_ofNat n (by omega), if_pos h1]
  · rw [if_neg h1]
    by_cases h2 : n < 0x800
    · rw [if_pos h2]
      simp only [List.cons_append, List.nil_append, utf8Step]
      rw [u8_ofNat _ (by omega : 0xC0 + n / 64 < 256), u8_ofNat _ (by omega : 0x80 + n % 64 < 256),
        if_neg (by omega), if_pos (by omega), if_pos (by rw [isCont_iff]; omega)]
      simp only [Option.some.injEq, Prod.mk.injEq, and_true]; omega
    · rw [if_neg h2]
      by_cases h3 : n < 0x10000
      · rw [if_pos h3]
        simp only [List.cons_append, List.nil_append, utf8Step]
        rw [u8_ofNat _ (by omega : 0xE0 + n / 4096 < 256), u8_ofNat _ (by omega : 0x80 + n / 64 % 64 < 256),
          u8_ofNat _ (by omega : 0x80 + n % 64 < 256),
          if_neg (by omega), if_neg (by omega), if_pos (by omega),
          if_pos (by rw [isCont_iff, isCont_iff]; omega)]
        simp only [Option.some.injEq, Prod.mk.injEq, and_true]; omega
      · rw [if_neg h3]
        simp only [List.cons_append, List.nil_append, utf8Step]
        rw [u8_ofNat _ (by omega : 0xF0 + n / 262144 < 256), u8_ofNat _ (by omega : 0x80 + n / 4096 % 64 < 256),
          u8_ofNat _ (by omega : 0x80 + n / 64 % 64 < 256), u8_ofNat _ (by omega : 0x80 + n % 64 < 256),
          if_neg (by omega), if_neg (by omega), if_neg (by omega), if_pos (by omega),
          if_pos (by rw [isCont_iff, isCont_iff, isCont_iff]; omega)]
        simp only [Option.some.injEq, Prod.mk.injEq, and_true]; omega

theorem utf8EncChar_pos (c : Char) : 0 < (utf8EncChar c).length := by
  simp only [utf8EncChar]; repeat' split
  all_goals simp

theorem utf8DecF_enc (s : Str) : ∀ f, (utf8Enc s).length ≤ f → utf8DecF f (utf8Enc s) = some s := by
  induction s with
  | nil => intro f _; cases f <;> rfl
  | cons c s ih =>
    intro f hf
    have hp := utf8EncChar_pos c
    have he : utf8Enc (c :: s) = utf8EncChar c ++ utf8Enc s := by simp [utf8Enc]
    rw [he] at hf ⊢
    rw [List.length_append] at hf
    cases f with
    | zero => omega
    | succ f =>
      have hst := utf8Step_enc c (utf8Enc s)
      generalize hb : utf8EncChar c ++ utf8Enc s = b at hst
      cases b with
      | nil =>
        have := congrArg List.length hb
        rw [List.length_append, List.length_nil] at this; omega
      | cons x b =>
        rw [utf8DecF, hst]
        simp only [ih f (by omega), Option.map_some, Char.ofNat_toNat]
        simp

theorem utf8Dec_enc (s : Str) : utf8Dec (utf8Enc s) = some s := utf8DecF_enc s _ (Nat.le_refl _)

theorem utf8Step_inv (b : Bytes) (n : Nat) (t : Bytes) (h : utf8Step b = some (n, t)) :
    IsScalar n ∧ b = utf8EncChar (Char.ofNat n) ++ t := by
  have key : ∀ pre : Bytes, IsScalar n → b = pre ++ t →
      (∀ c : Char, c.toNat = n → utf8EncChar c = pre) → IsScalar n ∧ b = utf8EncChar (Char.ofNat n) ++ t := by
    intro pre hs hb hc
    exact ⟨hs, by rw [hb, hc _ (toNat_ofNat_scalar n hs)]⟩
  rcases b with _ | ⟨b0, b⟩
  · simp [utf8Step] at h
  have hb0 := b0.toNat_lt
  simp only [utf8Step] at h
  split at h
  · rename_i h1
    simp only [Option.some.injEq, Prod.mk.injEq] at h
    obtain ⟨hn, rfl⟩ := h
    refine key [b0] (Or.inl (by omega)) rfl ?_
    intro c hc
    simp only [utf8EncChar, hc]
    rw [if_pos (by omega), u8_eq b0 n hn]
  · split at h
    · rename_i h1 h2
      rcases b with _ | ⟨b1, b⟩
      · simp at h
      simp only at h
      split at h
      · rename_i h3
        rw [isCont_iff] at h3
        simp only [Option.some.injEq, Prod.mk.injEq] at h
        obtain ⟨hn, rfl⟩ := h
        refine key [b0, b1] (Or.inl (by omega)) rfl ?_
        intro c hc
        simp only [utf8EncChar, hc]
        rw [if_neg (by omega), if_pos (by omega), u8_eq b0 _ (by omega), u8_eq b1 _ (by omega)]
      · simp at h
    · split at h
      · rename_i h1 h2 h3
        rcases b with _ | ⟨b1, _ | ⟨b2, b⟩⟩
        · simp at h
        · simp at h
        simp only at h
        split at h
        · rename_i h4
          rw [isCont_iff, isCont_iff] at h4
          simp only [Option.some.injEq, Prod.mk.injEq] at h
          obtain ⟨hn, rfl⟩ := h
          refine key [b0, b1, b2] (by unfold IsScalar; omega) rfl ?_
          intro c hc
          simp only [utf8EncChar, hc]
          rw [if_neg (by omega), if_neg (by omega), if_pos (by omega), u8_eq b0 _ (by omega),
            u8_eq b1 _ (by omega), u8_eq b2 _ (by omega)]
        · simp at h
      · split at h
        · rename_i h1 h2 h3 h3'
          rcases b with _ | ⟨b1, _ | ⟨b2, _ | ⟨b3, b⟩⟩⟩
          · simp at h
          · simp at h
          · simp at h
          simp only at h
          split at h
          · rename_i h4
            rw [isCont_iff, isCont_iff, isCont_iff] at h4
            simp only [Option.some.injEq, Prod.mk.injEq] at h
            obtain ⟨hn, rfl⟩ := h
            refine key [b0, b1, b2, b3] (by unfold IsScalar; omega) rfl ?_
            intro c hc
            simp only [utf8EncChar, hc]
            rw [if_neg (by omega), if_neg (by omega), if_neg (by omega), u8_eq b0 _ (by omega),
              u8_eq b1 _ (by omega), u8_eq b2 _ (by omega), u8_eq b3 _ (by omega)]
          · simp at h
        · simp at h

theorem utf8DecF_inv : ∀ f b s, utf8DecF f b = some s → utf8Enc s = b := by
  intro f
  induction f with
  | zero =>
    intro b s h
    cases b with
    | nil => simp [utf8DecF] at h; subst h; rfl
    | cons x b => simp [utf8DecF] at h
  | succ f ih =>
    intro b s h
    cases b with
    | nil => simp [utf8DecF] at h; subst h; rfl
    | cons x b =>
      rw [utf8DecF] at h
      · cases hst : utf8Step (x :: b) with
        | none => simp [hst] at h
        | some r =>
          obtain ⟨n, t⟩ := r
          simp only [hst, Option.map_eq_some_iff] at h
          obtain ⟨s', hs', rfl⟩ := h
          have := utf8Step_inv _ _ _ hst
          rw [this.2]
          simp [utf8Enc] at ih ⊢
          exact ih _ _ hs'
      · simp

theorem utf8Dec_inv (b : Bytes) (s : Str) (h : utf8Dec b = some s) : utf8Enc s = b :=
  utf8DecF_inv _ _ _ h

/-! ### UTF-16 -/

theorem utf16Dec_encChar (c : Char) (t : List Nat) :
    utf16Dec (utf16EncChar c ++ t) = (utf16Dec t).map (c :: ·) := by
  have hs := char_scalar c
  unfold IsScalar at hs
  have hc : ∀ n, n = c.toNat → Char.ofNat n = c := by rintro n rfl; exact Char.ofNat_toNat c
  generalize hn : c.toNat = n at hs hc
  simp only [utf16EncChar, hn]
  by_cases h : n < 0x10000
  · rw [if_pos h, List.singleton_append, utf16Dec.eq_def]
    simp only
    rw [if_pos (by omega), hc n rfl]
  · rw [if_neg h]
    simp only [List.cons_append, List.nil_append]
    rw [utf16Dec.eq_def]
    simp only
    rw [if_neg (by omega), if_neg (by omega)]
    rw [if_pos (by omega), hc _ (by omega)]

theorem utf16Dec_enc (s : Str) : utf16Dec (utf16Enc s) = some s := by
  induction s with
  | nil => simp [utf16Enc, utf16Dec]
  | cons c s ih =>
    have : utf16Enc (c :: s) = utf16EncChar c ++ utf16Enc s := by simp [utf16Enc]
    rw [this, utf16Dec_encChar, ih]; rfl

theorem utf16Enc_lt (s : Str) : ∀ u ∈ utf16Enc s, u < 65536 := by
  intro u hu
  simp only [utf16Enc, List.mem_flatMap] at hu
  obtain ⟨c, -, hu⟩ := hu
  have hs := char_scalar c
  unfold IsScalar at hs
  simp only [utf16EncChar] at hu
  split at hu
  · simp at hu; omega
  · simp at hu; omega

theorem utf16Dec_inv : ∀ (u : List Nat) (s : Str), (∀ x ∈ u, x < 65536) → utf16Dec u = some s →
    utf16Enc s = u := by
  intro u
  fun_induction utf16Dec u with
  | case1 => intro s _ h; simp at h; subst h; rfl
  | case2 u t h ih =>
    intro s hl hd
    simp only [Option.map_eq_some_iff] at hd
    obtain ⟨s', hs', rfl⟩ := hd
    have hu := hl u (by simp)
    have hn := toNat_ofNat_scalar u (by unfold IsScalar; omega)
    have := ih s' (fun x hx => hl x (by simp [hx])) hs'
    simp only [utf16Enc, List.flatMap_cons] at this ⊢
    rw [this, utf16EncChar]; simp only [hn]; rw [if_pos hu]; rfl
  | case3 => intro s _ h; simp at h
  | case4 u h1 h2 v t h3 ih =>
    intro s hl hd
    simp only [Option.map_eq_some_iff] at hd
    obtain ⟨s', hs', rfl⟩ := hd
    have hn := toNat_ofNat_scalar (0x10000 + (u - 0xD800) * 1024 + (v - 0xDC00))
      (by unfold IsScalar; omega)
    have := ih s' (fun x hx => hl x (by simp [hx])) hs'
    simp only [utf16Enc, List.flatMap_cons] at this ⊢
    rw [this, utf16EncChar]; simp only [hn]; rw [if_neg (by omega)]
    simp only [List.cons_append, List.nil_append, List.cons.injEq, and_true]; omega
  | case5 => intro s _ h; simp at h
  | case6 => intro s _ h; simp at h

/-- The bytes of a sequence of code units, most significant byte first. -/
def be16 (u : List Nat) : Bytes := u.flatMap (toBe 2)

theorem toBe_two (n : Nat) : toBe 2 n = [UInt8.ofNat (n / 256 % 256), UInt8.ofNat (n % 256)] := by
  simp [toBe]

theorem units16_be16 (u : List Nat) (t : Bytes) (h : ∀ x ∈ u, x < 65536) :
    units16 (be16 u ++ t) = u ++ units16 t := by
  induction u with
  | nil => simp [be16]
  | cons x u ih =>
    have hx := h x (by simp)
    have : be16 (x :: u) = toBe 2 x ++ be16 u := by simp [be16]
    rw [this, toBe_two]
    simp only [List.cons_append, List.nil_append, units16]
    rw [ih (fun y hy => h y (by simp [hy])), u8_ofNat _ (by omega), u8_ofNat _ (by omega)]
    simp only [List.cons.injEq, and_true]; omega

theorem units16_lt (b : Bytes) : ∀ x ∈ units16 b, x < 65536 := by
  fun_induction units16 b with
  | case1 a b t ih =>
    intro x hx
    have := a.toNat_lt; have := b.toNat_lt
    simp at hx
    rcases hx with rfl | hx
    · omega
    · exact ih x hx
  | case2 => simp

theorem be16_units16 (b : Bytes) (h : b.length % 2 = 0) : be16 (units16 b) = b := by
  fun_induction units16 b with
  | case1 a b t ih =>
    have := a.toNat_lt; have := b.toNat_lt
    simp only [List.length_cons] at h
    have ih := ih (by omega)
    have : be16 ((a.toNat * 256 + b.toNat) :: units16 t) = toBe 2 (a.toNat * 256 + b.toNat) ++ be16 (units16 t) := by
      simp [be16]
    rw [this, ih, toBe_two, u8_eq a _ (by omega), u8_eq b _ (by omega)]; rfl
  | case2 b hb =>
    rcases b with _ | ⟨a, _ | ⟨b, t⟩⟩
    · rfl
    · simp at h
    · exact absurd rfl (hb a b t)

end Mp4
