import Verif.Proof.Calls
/-
How often a reader is called when a tag is read.
-/
namespace Mp4
open Spec

section
variable {c : Sched} {e : Env} {F : Bytes} {φ : Nat → Nat} {p b : Nat}

/-! ### The occurrences of `mp4a` -/

theorem mp4aCount_drop (F : Bytes) (n : Nat) : mp4aCount (F.drop n) ≤ mp4aCount F := by
  induction F generalizing n with
  | nil => simp
  | cons x F ih =>
    cases n with
    | zero => exact Nat.le_refl _
    | succ n =>
      have := ih n
      simp only [List.drop_succ_cons, mp4aCount]
      omega

theorem mp4aCount_anti (F : Bytes) {p q : Nat} (h : p ≤ q) : mp4aCount (F.drop q) ≤ mp4aCount (F.drop p) := by
  have := mp4aCount_drop (F.drop p) (q - p)
  rwa [List.drop_drop, show p + (q - p) = q by omega] at this

theorem mp4aCount_at {F : Bytes} {p : Nat} (h : At F p [0x6d, 0x70, 0x34, 0x61]) : mp4aCount (F.drop (p + 1)) + 1 ≤ mp4aCount (F.drop p) := by
  have ht : (F.drop p).take 4 = [0x6d, 0x70, 0x34, 0x61] := by rw [h.drop]; rfl
  rcases hd : F.drop p with _ | ⟨x, G⟩
  · rw [hd] at ht; cases ht
  · have h1 : F.drop (p + 1) = G := by
      rw [← List.drop_drop, hd]; rfl
    rw [hd] at ht
    rw [h1, mp4aCount, if_pos ht]
    omega

/-- What can be earned when reading: four per byte, and for each `mp4a` three per byte of the data. -/
def readPot (F : Bytes) (p : Nat) : Nat := 4 * (F.length - p) + 3 * F.length * mp4aCount (F.drop p)

theorem readPot_pot (F : Bytes) : Pot F (2 + 1 + 1) (readPot F) := by
  refine ⟨fun p q h => ?_, fun p n h => ?_⟩
  · have := Nat.mul_le_mul_left (3 * F.length) (mp4aCount_anti F h)
    unfold readPot
    omega
  · have := Nat.mul_le_mul_left (3 * F.length) (mp4aCount_anti F (show p ≤ p + n by omega))
    unfold readPot
    omega

theorem readPot_mp4a {F : Bytes} {p : Nat} {h : Head} {b b' : Nat} (hat : HeadOf F p h) (hf : h.fourcc = MP4_AUDIO)
    (hg : readPot F (p + h.size.headLen) + h.size.headLen + b' = readPot F p + b) : b + 24 + 3 * F.length ≤ b' := by
  have h8 := headLen_ge h.size
  have hle := hat.le
  have hfour : At F (p + 4) [0x6d, 0x70, 0x34, 0x61] := by
    have hd := hat.1
    rw [hf] at hd
    have : ∃ a z, headBytes h.size.ext MP4_AUDIO h.size.len = be32 a ++ ([0x6d, 0x70, 0x34, 0x61] ++ z) := by
      cases h.size.ext with
      | true => exact ⟨1, be64 h.size.len, rfl⟩
      | false => exact ⟨h.size.len, [], rfl⟩
    obtain ⟨a, z, hz⟩ := this
    rw [hz] at hd
    exact (At_append.mp (At_append.mp hd).2).1
  have h1 := mp4aCount_at hfour
  have h2 := mp4aCount_anti F (show p ≤ p + 4 by omega)
  have h3 := mp4aCount_anti F (show p + 4 + 1 ≤ p + h.size.headLen by omega)
  have h4 := Nat.mul_le_mul_left (3 * F.length) (show mp4aCount (F.drop (p + h.size.headLen)) + 1 ≤ mp4aCount (F.drop p) by omega)
  rw [Nat.mul_add] at h4
  unfold readPot at hg
  omega

/-! ### `mvhd` -/

theorem Spend.readU8Flat {Q : UInt8 → Nat → Nat → Prop} (h1 : 1 ≤ b)
    (h : ∀ v, p + 1 ≤ F.length → Q v (p + 1) (b - 1)) : Spend c e F (fun _ => 0) p b readU8R Q := by
  refine .bind (.readFlat (Q := fun bs q b' => bs.length = 1 ∧ At F p bs ∧ q = p + 1 ∧ b' = b - 1) h1
    fun bs h1 h2 => ⟨h1, h2 (by omega), rfl, rfl⟩) ?_
  rintro bs _ _ ⟨hl, hat, rfl, rfl⟩
  exact .pure (h _ (by have := hat.le; omega))

theorem Spend.fullHeadFlat {Q : UInt8 × Bytes → Nat → Nat → Prop} (h1 : 4 ≤ b)
    (h : ∀ v, p + 4 ≤ F.length → Q v (p + 4) (b - 4)) : Spend c e F (fun _ => 0) p b parseFullHeadR Q := by
  refine .bind (.readU8Flat (Q := fun v q b' => q = p + 1 ∧ b' = b - 1) (by omega) fun v h1 => ⟨rfl, rfl⟩) ?_
  rintro v _ _ ⟨rfl, rfl⟩
  refine .bind (.readFlat (Q := fun bs q b' => p + 4 ≤ F.length ∧ q = p + 1 + 3 ∧ b' = b - 1 - 3) (by omega)
    fun bs h1 h2 => ⟨by have := (h2 (by omega)).le; omega, rfl, rfl⟩) ?_
  rintro fl _ _ ⟨hle, rfl, rfl⟩
  have := h (v, fl) hle
  exact .pure (by simpa only [Nat.add_assoc, Nat.sub_sub] using this)

theorem Spend.readU32Flat {Q : Nat → Nat → Nat → Prop} (h1 : 4 ≤ b)
    (h : ∀ v, p + 4 ≤ F.length → Q v (p + 4) (b - 4)) : Spend c e F (fun _ => 0) p b readU32R Q := by
  refine .bind (.readFlat (Q := fun bs q b' => bs.length = 4 ∧ At F p bs ∧ q = p + 4 ∧ b' = b - 4) h1
    fun bs h1 h2 => ⟨h1, h2 (by omega), rfl, rfl⟩) ?_
  rintro bs _ _ ⟨hl, hat, rfl, rfl⟩
  exact .pure (h _ (by have := hat.le; omega))

theorem Spend.readU64Flat {Q : Nat → Nat → Nat → Prop} (h1 : 8 ≤ b)
    (h : ∀ v, p + 8 ≤ F.length → Q v (p + 8) (b - 8)) : Spend c e F (fun _ => 0) p b readU64R Q := by
  refine .bind (.readFlat (Q := fun bs q b' => bs.length = 8 ∧ At F p bs ∧ q = p + 8 ∧ b' = b - 8) h1
    fun bs h1 h2 => ⟨h1, h2 (by omega), rfl, rfl⟩) ?_
  rintro bs _ _ ⟨hl, hat, rfl, rfl⟩
  exact .pure (h _ (by have := hat.le; omega))

theorem mvhd_flat (hs : SaneC e F) {h : Head} (hat : HeadOf F p h) :
    Spend c e F (fun _ => 0) (p + h.size.headLen) 24 (parseMvhdR h.size) fun _ q _ => q = p + h.size.len := by
  obtain ⟨hz1, hz2⟩ := hs.size hat
  have hle := hat.le
  have hl := hs.len
  refine .bind (.findBounds (Q := fun x q b' => x = ⟨p, h.size⟩ ∧ q = p + h.size.headLen ∧ b' = 23) (b' := 23) (by omega) ⟨rfl, rfl, rfl⟩) ?_
  rintro _ _ _ ⟨rfl, rfl, rfl⟩
  refine .bind (.fullHeadFlat (Q := fun _ q b' => b' = 19) (by omega) fun _ _ => rfl) ?_
  rintro ⟨version, fl⟩ r _ rfl
  have fin : ∀ d s y, s ≤ F.length → 2 ≤ y → Spend c e F (fun _ => 0) s y (do seekToEndR ⟨p, h.size⟩; Pure.pure d)
      fun (_ : Nat) q _ => q = p + h.size.len := fun d s y hs' hy =>
    .bind (.seekToEnd (x := ⟨p, h.size⟩) hs.max (by show p + h.size.len < _; omega) (by omega) hy (Q := fun _ q _ => q = p + h.size.len) rfl)
      fun _ _ _ h => .pure h
  refine .ite (fun _ => ?_) fun _ => .ite (fun _ => ?_) fun _ => .fail
  · refine .bind (.seekCur (b' := 18) (Q := fun _ _ b' => b' = 18) (by omega) fun r' _ _ => ⟨by omega, rfl⟩) ?_
    rintro _ r1 _ rfl
    refine .bind (.readU32Flat (Q := fun _ _ b' => b' = 14) (by omega) fun _ _ => rfl) ?_
    rintro ts r2 _ rfl
    refine .bind (.readU32Flat (Q := fun _ q b' => q ≤ F.length ∧ b' = 10) (by omega) fun _ h => ⟨h, rfl⟩) ?_
    rintro du r3 _ ⟨h3, rfl⟩
    refine .bind (.E (Q := fun _ q b' => q ≤ F.length ∧ b' = 10) fun _ _ => ⟨h3, rfl⟩) ?_
    rintro n r4 _ ⟨h4, rfl⟩
    refine .bind (.E (Q := fun _ q b' => q ≤ F.length ∧ b' = 10) fun _ _ => ⟨h4, rfl⟩) ?_
    rintro d r5 _ ⟨h5, rfl⟩
    exact fin d _ _ h5 (by omega)
  · refine .bind (.seekCur (b' := 18) (Q := fun _ _ b' => b' = 18) (by omega) fun r' _ _ => ⟨by omega, rfl⟩) ?_
    rintro _ r1 _ rfl
    refine .bind (.readU32Flat (Q := fun _ _ b' => b' = 14) (by omega) fun _ _ => rfl) ?_
    rintro ts r2 _ rfl
    refine .bind (.readU64Flat (Q := fun _ q b' => q ≤ F.length ∧ b' = 6) (by omega) fun _ h => ⟨h, rfl⟩) ?_
    rintro du r3 _ ⟨h3, rfl⟩
    refine .bind (.E (Q := fun _ q b' => q ≤ F.length ∧ b' = 6) fun _ _ => ⟨h3, rfl⟩) ?_
    rintro n r4 _ ⟨h4, rfl⟩
    refine .bind (.E (Q := fun _ q b' => q ≤ F.length ∧ b' = 6) fun _ _ => ⟨h4, rfl⟩) ?_
    rintro d r5 _ ⟨h5, rfl⟩
    exact fin d _ _ h5 (by omega)

theorem mvhd_child (hs : SaneC e F) (hφ : Pot F (2 + 1 + 1) φ) : CChild c e F φ parseMvhdR MOVIE_HEADER := by
  intro h p b b' hat _ hb hg
  have hgain := head_gain hφ hat hg
  obtain ⟨hz1, hz2⟩ := hs.size hat
  refine (mvhd_flat hs hat).lift (by omega) ?_
  rintro _ _ b2 rfl
  have := hφ.anti (p + h.size.headLen) (p + h.size.len) (by omega)
  exact ⟨b, by omega, Nat.le_refl _⟩

/-! ### `mp4a` -/

/-- What can be earned when reading descriptors; the decoder specific one may move back by two bytes, unless overflows are checked. -/
structure DescPot (e : Env) (F : Bytes) (φ : Nat → Nat) : Prop where
  pot : Pot F (2 + 1) φ
  back : e.checked = true ∨ ∀ p r, p ≤ r + 2 → φ r ≤ φ p + 6

theorem descHeadLoop_spend (hφ : DescPot e F φ) : ∀ k headLen len n p b, 1 ≤ b → len < 128 ^ n → headLen + k ≤ 5 →
    Spend c e F φ p b (descHeadLoopR k headLen len) fun x q b' =>
      x.1 ≤ 5 ∧ x.2 < 128 ^ (n + k) ∧ b ≤ b' ∧ (0 < k → b + 2 ≤ b' ∧ q ≤ F.length) ∧ (k = 0 → q = p) := by
  intro k
  induction k with
  | zero =>
    intro headLen len n p b _ hl hh
    exact .pure ⟨by omega, hl, Nat.le_refl _, by omega, fun _ => rfl⟩
  | succ k ih =>
    intro headLen len n p b hb hl hh
    rw [descHeadLoopR]
    refine .bind (.readU8 hφ.pot (Q := fun v q b' => q = p + 1 ∧ q ≤ F.length ∧ b' = b + 2) hb
      fun v h => ⟨rfl, by have := h.le; simp only [List.length_cons, List.length_nil] at this; omega, rfl⟩) ?_
    rintro v _ _ ⟨rfl, hle, rfl⟩
    dsimp only
    have hv : len * 128 + v.toNat % 128 < 128 ^ (n + 1) := by
      have := Nat.mod_lt v.toNat (show 0 < 128 by omega)
      rw [Nat.pow_succ]
      omega
    have hmono : 128 ^ (n + 1) ≤ 128 ^ (n + (k + 1)) := Nat.pow_le_pow_right (by omega) (by omega)
    refine .ite (fun _ => .pure ⟨by show headLen + 1 ≤ 5; omega, Nat.lt_of_lt_of_le hv hmono, by omega, fun _ => ⟨by omega, hle⟩, by omega⟩) fun _ => ?_
    refine (ih (headLen + 1) _ (n + 1) (p + 1) (b + 2) (by omega) hv (by omega)).mono ?_
    rintro x q b' ⟨h1, h2, h3, h4, h5⟩
    refine ⟨h1, by rwa [show n + (k + 1) = n + 1 + k by omega], by omega, fun _ => ⟨by omega, ?_⟩, by omega⟩
    rcases Nat.eq_zero_or_pos k with h0 | h0
    · rw [h5 h0]; exact hle
    · exact (h4 h0).2

theorem descHead_spend (hφ : DescPot e F φ) (hb : 1 ≤ b) : Spend c e F φ p b parseDescHeadR fun x q b' =>
    x.2.1 ≤ 5 ∧ x.2.2 < 2^28 ∧ b + 4 ≤ b' ∧ q ≤ F.length := by
  refine .bind (.readU8 hφ.pot (Q := fun v q b' => b' = b + 2) hb fun v h => rfl) ?_
  rintro tag q _ rfl
  refine .bind (descHeadLoop_spend hφ 4 1 0 0 q (b + 2) (by omega) (by omega) (by omega)) ?_
  rintro ⟨hl, len⟩ r b' ⟨h1, h2, h3, h4, _⟩
  exact .pure ⟨h1, by show len < _; simpa using h2, by have := (h4 (by omega)).1; omega, (h4 (by omega)).2⟩

theorem descWalk_spend {wanted : UInt8} {handle : Mp4a → Nat → R Mp4a} {limit : Nat} (hs : SaneC e F) (hφ : DescPot e F φ)
    (hh : ∀ info len p b, len < 2^28 → 1 ≤ b → p < 2^63 →
      Spend c e F φ p (b + 4) (handle info len) fun _ q b' => b ≤ b' ∧ q < 2^63) :
    ∀ f info parsed p b, 1 ≤ b → p < 2^63 →
      Spend c e F φ p b (descWalkR wanted handle limit f info parsed) fun _ q b' => b ≤ b' ∧ q < 2^63 := by
  have hl := hs.len
  have hm := hs.max
  intro f
  induction f with
  | zero => intro info parsed p b _ _; exact .outOfFuel
  | succ f ih =>
    intro info parsed p b hb hp
    rw [descWalkR]
    refine .ite (fun _ => ?_) fun _ => .pure ⟨Nat.le_refl _, hp⟩
    refine .bind (descHead_spend hφ hb) ?_
    rintro ⟨tag, hl', len⟩ q b1 ⟨h1, h2, h3, h4⟩
    dsimp only at h1 h2 ⊢
    obtain ⟨b1, rfl⟩ : ∃ x, b1 = x + 4 := ⟨b1 - 4, by omega⟩
    refine .bind (Q := fun _ q b' => b ≤ b' ∧ q < 2^63) (.ite (fun _ => (hh info len q b1 h2 (by omega) (by omega)).mono fun _ _ _ h => ⟨by omega, h.2⟩) fun _ => ?_) ?_
    · rw [asI64_small (by omega)]
      refine .bind (.seekCur (b' := b1) (Q := fun _ q b' => b' = b1 ∧ q < 2^63) (by omega) fun r hr hrm => ?_) ?_
      · have := hφ.pot.anti q r (by omega)
        exact ⟨by omega, rfl, by omega⟩
      · rintro _ r _ ⟨rfl, hr⟩
        exact .pure ⟨by omega, hr⟩
    · rintro info' r b2 ⟨hb2, hr⟩
      refine .bind (.E (Q := fun _ q b' => r = q ∧ b2 = b') fun _ _ => ⟨rfl, rfl⟩) ?_
      rintro _ _ _ ⟨rfl, rfl⟩
      refine .bind (.E (Q := fun _ q b' => r = q ∧ b2 = b') fun _ _ => ⟨rfl, rfl⟩) ?_
      rintro parsed' _ _ ⟨rfl, rfl⟩
      exact (ih info' parsed' r b2 (by omega) hr).mono fun _ _ _ h => ⟨by omega, h.2⟩

theorem ds_spend (hs : SaneC e F) (hφ : DescPot e F φ) (info : Mp4a) (len p b : Nat) (hlen : len < 2^28) (hb : 1 ≤ b) (_ : p < 2^63) :
    Spend c e F φ p (b + 4) (parseDsDescR info len) fun _ q b' => b ≤ b' ∧ q < 2^63 := by
  have hm := hs.max
  refine .bind (.bind (Q := fun bs q b' => p + 2 ≤ F.length ∧ q = p + 2 ∧ b' = b + 8) (.read hφ.pot (by omega) fun bs h1 h2 => ?_)
    (S := fun _ q b' => p + 2 ≤ F.length ∧ q = p + 2 ∧ b' = b + 8) fun _ _ _ h => .pure h) ?_
  · have := (h2 (by omega)).le
    exact ⟨by omega, rfl, by omega⟩
  rintro num _ _ ⟨hle, rfl, rfl⟩
  dsimp only
  refine .bind (.E (Q := fun n q b' => q = p + 2 ∧ b' = b + 8 ∧ -2 ≤ asI64 n ∧ (e.checked = true → 0 ≤ asI64 n)) fun n hn => ⟨rfl, rfl, ?_⟩) ?_
  · unfold Mp4.subU at hn
    split at hn
    · injection hn with hn
      rw [asI64_small (by omega)]
      omega
    · split at hn
      · cases hn
      · injection hn with hn
        refine ⟨?_, fun h => absurd h ‹_›⟩
        unfold asI64
        split <;> omega
  rintro n _ _ ⟨rfl, rfl, hn, hnc⟩
  refine .bind (.seekCur (b' := b + 1) (Q := fun _ q b' => b' = b + 1 ∧ q < 2^63) (by omega) fun r hr hrm => ?_) ?_
  · refine ⟨?_, rfl, by omega⟩
    rcases hφ.back with h | h
    · have h0 := hnc h
      have := hφ.pot.anti (p + 2) r (by omega)
      omega
    · have := h (p + 2) r (by omega)
      omega
  · rintro _ r _ ⟨rfl, hr⟩
    exact .pure ⟨by omega, hr⟩

theorem dc_spend (hs : SaneC e F) (hφ : DescPot e F φ) (info : Mp4a) (len p b : Nat) (_ : len < 2^28) (hb : 1 ≤ b) (_ : p < 2^63) :
    Spend c e F φ p (b + 4) (parseDcDescR info len) fun _ q b' => b ≤ b' ∧ q < 2^63 := by
  have hl := hs.len
  refine .bind (.seekCur (b' := b + 3) (Q := fun _ q b' => b' = b + 3) (by omega) fun r hr hrm => ?_) ?_
  · have := hφ.pot.anti p r (by omega)
    exact ⟨by omega, rfl⟩
  rintro _ q _ rfl
  refine .bind (.readU32 hφ.pot (Q := fun _ _ b' => b ≤ b') (by omega) fun _ _ _ => by omega) ?_
  intro mx q1 b1 hb1
  refine .bind (.readU32 hφ.pot (Q := fun _ q b' => b ≤ b' ∧ q < 2^63) (by omega) fun v _ h => ⟨by omega, ?_⟩) ?_
  · have := h.le
    rw [be32_length] at this
    omega
  rintro avg q2 b2 ⟨hb2, hq2⟩
  refine .bind (.getFuel (Q := fun _ q b' => q2 = q ∧ b2 = b') ⟨rfl, rfl⟩) ?_
  rintro f _ _ ⟨rfl, rfl⟩
  exact (descWalk_spend hs hφ (ds_spend hs hφ) f _ 13 q2 b2 (by omega) hq2).mono fun _ _ _ h => ⟨by omega, h.2⟩

theorem es_spend (hs : SaneC e F) (hφ : DescPot e F φ) (info : Mp4a) (len : Nat) (hb : 2 ≤ b) :
    Spend c e F φ p b (parseEsDescR info len) fun _ q b' => q < 2^63 ∧ b ≤ b' + 1 := by
  have hm := hs.max
  refine .bind (.seekCur (b' := b - 1) (Q := fun _ q b' => q < 2^63 ∧ b' = b - 1) (by omega) fun r hr hrm => ?_) ?_
  · have := hφ.pot.anti p r (by omega)
    exact ⟨by omega, by omega, rfl⟩
  rintro _ q _ ⟨hq, rfl⟩
  refine .bind (.getFuel (Q := fun _ r b' => q = r ∧ b - 1 = b') ⟨rfl, rfl⟩) ?_
  rintro f _ _ ⟨rfl, rfl⟩
  exact (descWalk_spend hs hφ (dc_spend hs hφ) f info 3 q _ (by omega) hq).mono fun _ _ _ h => ⟨h.2, by omega⟩

theorem esds_spend (hs : SaneC e F) (hφ : DescPot e F φ) (info : Mp4a) (size : Size) (hb : 1 ≤ b) :
    Spend c e F φ p b (parseEsdsR info size) fun _ q b' => q < 2^63 ∧ b ≤ b' := by
  refine .bind (.fullHead hφ.pot (Q := fun _ _ b' => b ≤ b') hb fun _ _ h => h) ?_
  rintro ⟨version, fl⟩ q b1 hb1
  refine .ite (fun _ => .fail) fun _ => .bind (descHead_spend hφ (by omega)) ?_
  rintro ⟨tag, hl, len⟩ q2 b2 ⟨_, _, hb2, _⟩
  refine .ite (fun _ => .fail) fun _ => .bind (.E (Q := fun _ _ b' => b2 = b') fun _ _ => rfl) ?_
  rintro n q3 _ rfl
  refine .bind (.E (Q := fun _ _ b' => b2 = b') fun _ _ => rfl) ?_
  rintro n q4 _ rfl
  refine .bind (.E (Q := fun _ _ b' => b2 = b') fun _ _ => rfl) ?_
  rintro n q5 _ rfl
  exact (es_spend hs hφ info _ (by omega)).mono fun _ _ _ h => ⟨h.1, by omega⟩

theorem restPot_desc (e : Env) (F : Bytes) : DescPot e F fun p => 3 * (F.length - p) :=
  ⟨pot_rest F 3, .inr fun p r h => by omega⟩

theorem mp4a_flat (hs : SaneC e F) {h : Head} (hat : HeadOf F p h) :
    Spend c e F (fun _ => 0) (p + h.size.headLen) (3 * F.length + 24) (parseMp4aR h.size) fun _ q _ => q = p + h.size.len := by
  obtain ⟨hz1, hz2⟩ := hs.size hat
  have hle := hat.le
  have hl := hs.len
  refine .bind (.findBounds (Q := fun x q b' => x = ⟨p, h.size⟩ ∧ q = p + h.size.headLen ∧ b' = 3 * F.length + 23)
    (b' := 3 * F.length + 23) (by omega) ⟨rfl, rfl, rfl⟩) ?_
  rintro _ _ _ ⟨rfl, rfl, rfl⟩
  refine .bind (.seekCur (b' := 3 * F.length + 22) (Q := fun _ _ b' => b' = 3 * F.length + 22) (by omega) fun r' _ _ => ⟨by omega, rfl⟩) ?_
  rintro _ r _ rfl
  refine .bind (Q := fun _ q b' => b' = 3 * (F.length - q) + 20) ((Spend.parseHead (pot_rest F 3) (b := 1) (Q := fun _ _ b' => 1 ≤ b')
    (Nat.le_refl _) fun hd b' hh hg => by have := head_gain (pot_rest F 3) hh hg; omega).lift (by omega)
    fun _ q b' hb' => ⟨3 * (F.length - q) + 20, by omega, rfl⟩) ?_
  rintro hd q _ rfl
  refine .ite (fun _ => .fail) fun _ => ?_
  refine .bind (Q := fun _ q b' => q < 2^63 ∧ b' = 2) ((esds_spend hs (restPot_desc e F) {} hd.size (Nat.le_refl 1)).lift (by omega)
    fun _ q b' hq => ⟨2, by omega, hq.1, rfl⟩) ?_
  rintro info q2 _ ⟨hq, rfl⟩
  exact .bind (.seekToEnd (x := ⟨p, h.size⟩) hs.max (by show p + h.size.len < _; omega) hq (Nat.le_refl _) (Q := fun _ q _ => q = p + h.size.len) rfl)
    fun _ _ _ h => .pure h

/-- In general, each `mp4a` costs up to three calls per byte of the data. -/
theorem mp4a_child (hs : SaneC e F) : CChild c e F (readPot F) parseMp4aR MP4_AUDIO := by
  intro h p b b' hat hf hb hg
  have hgain := readPot_mp4a hat hf hg
  obtain ⟨hz1, hz2⟩ := hs.size hat
  refine (mp4a_flat hs hat).lift (by omega) ?_
  rintro _ _ b2 rfl
  have := (readPot_pot F).anti (p + h.size.headLen) (p + h.size.len) (by omega)
  exact ⟨b, by omega, Nat.le_refl _⟩

/-- If overflows are checked, the end of the atom can only be sought forward. -/
theorem Spend.seekToEndChecked (hc : e.checked = true) {K} (hφ : Pot F K φ) {x : AtomBounds} (h1 : x.pos + x.size.len < 2^64)
    (hb : 2 ≤ b) {Q : Unit → Nat → Nat → Prop} (hQ : ∀ q, Q () q (b - 2)) :
    Spend c e F φ p b (seekToEndR x) Q := by
  refine .bind (.tell (Q := fun n q y => p = n ∧ p = q ∧ y = b - 1) (by omega) ⟨rfl, rfl, rfl⟩) ?_
  rintro _ _ _ ⟨rfl, rfl, rfl⟩
  refine .bind (.E (Q := fun n q y => n = x.pos + x.size.len ∧ p = q ∧ y = b - 1) fun n hn => ?_) ?_
  · change Mp4.addU x.pos x.size.len e = .ok n at hn
    unfold Mp4.addU at hn
    rw [if_pos h1] at hn
    injection hn with hn
    exact ⟨hn.symm, rfl, rfl⟩
  rintro _ _ _ ⟨rfl, rfl, rfl⟩
  refine .bind (.E (Q := fun n q y => p = q ∧ y = b - 1 ∧ p + n = x.pos + x.size.len) fun n hn => ?_) ?_
  · unfold Mp4.subU at hn
    split at hn
    · injection hn with hn
      exact ⟨rfl, rfl, by omega⟩
    · cases hn
  rintro n _ _ ⟨rfl, rfl, hn⟩
  refine .seekCur (b' := b - 2) (by omega) fun r hr hrm => ?_
  have : p ≤ r := by
    unfold asI64 at hr
    split at hr <;> omega
  have := hφ.anti p r this
  exact ⟨by omega, hQ r⟩

/-- If overflows are checked, nothing is read twice. -/
theorem mp4a_child_checked (hs : SaneC e F) (hc : e.checked = true) (hφ : Pot F (2 + 1 + 1) φ) : CChild c e F φ parseMp4aR MP4_AUDIO := by
  intro h p b b' hat _ hb hg
  have hgain := head_gain hφ hat hg
  obtain ⟨hz1, hz2⟩ := hs.size hat
  have hle := hat.le
  have hl := hs.len
  have hd : DescPot e F φ := ⟨⟨hφ.anti, fun p n h => by have := hφ.pay p n h; omega⟩, .inl hc⟩
  refine .bind (.findBounds (Q := fun x _ y => x = ⟨p, h.size⟩ ∧ y = b + 23) (b' := b + 23) (by omega) ⟨rfl, rfl⟩) ?_
  rintro _ q _ ⟨rfl, rfl⟩
  refine .bind (.seekCur (b' := b + 22) (Q := fun _ _ b' => b' = b + 22) (by omega) fun r hr _ => ?_) ?_
  · have := hφ.anti q r (by omega)
    exact ⟨by omega, rfl⟩
  rintro _ r _ rfl
  refine .bind (.parseHead hφ (Q := fun _ _ b' => b + 22 ≤ b') (by omega) fun hd b' hh hg => by have := head_gain hφ hh hg; omega) ?_
  intro head q2 b2 hb2
  refine .ite (fun _ => .fail) fun _ => ?_
  refine .bind (esds_spend hs hd {} head.size (by omega)) ?_
  rintro info q3 b3 ⟨hq, hb3⟩
  exact .bind (.seekToEndChecked (x := ⟨p, h.size⟩) hc hφ (by show p + h.size.len < _; omega) (by omega) (Q := fun _ _ y => b ≤ y) fun _ => by omega)
    fun _ _ _ h => .pure h

/-! ### Containers -/

theorem stsd_child (hs : SaneC e F) (hφ : Pot F (2 + 1 + 1) φ) (hm : CChild c e F φ parseMp4aR MP4_AUDIO) : CChild c e F φ parseStsdR SAMPLE_TABLE_SAMPLE_DESCRIPTION := by
  intro h p b b' hat _ hb hg
  have hgain := head_gain hφ hat hg
  refine .bind (.fullHead hφ (Q := fun _ _ b' => b + 24 ≤ b') (by omega) fun _ _ _ => by omega) ?_
  rintro ⟨version, fl⟩ q b1 hb1
  refine .ite (fun _ => .fail) fun _ => ?_
  refine .bind (.seekCur (b' := b) (Q := fun _ _ b' => b = b') (by omega) fun r hr _ => ?_) ?_
  · have := hφ.anti q r (by omega)
    exact ⟨by omega, rfl⟩
  rintro _ r _ rfl
  exact loop_spend hφ (.one hs hφ hm fun _ a => some a) _ _ _ _ hb

/-- A container without anything in front of its children. -/
theorem CChild.loop {K} (hφ : Pot F (K + 1) φ) {σ} {handle : σ → Head → R σ} (hh : CBody c e F φ handle) (s : σ) (n : Nat) (fc : Fourcc) :
    CChild c e F φ (fun size => loopR size.contentLen handle s n) fc := by
  intro h p b b' hat _ hb hg
  have hgain := head_gain hφ hat hg
  exact (loop_spend hφ hh s n _ b' (by omega)).mono fun _ _ _ h => by omega

theorem stbl_child (hs : SaneC e F) (hφ : Pot F (2 + 1 + 1) φ) (hm : CChild c e F φ parseMp4aR MP4_AUDIO) : CChild c e F φ parseStblR SAMPLE_TABLE :=
  .loop hφ (.one hs hφ (stsd_child hs hφ hm) fun _ a => some a) _ _ _

theorem minf_child (hs : SaneC e F) (hφ : Pot F (2 + 1 + 1) φ) (hm : CChild c e F φ parseMp4aR MP4_AUDIO) : CChild c e F φ parseMinfR MEDIA_INFORMATION :=
  .loop hφ (.one hs hφ (stbl_child hs hφ hm) fun _ a => some a) _ _ _

theorem mdia_child (hs : SaneC e F) (hφ : Pot F (2 + 1 + 1) φ) (hm : CChild c e F φ parseMp4aR MP4_AUDIO) : CChild c e F φ parseMdiaR MEDIA :=
  .loop hφ (.one hs hφ (minf_child hs hφ hm) fun _ a => some a) _ _ _

theorem trak_child (hs : SaneC e F) (hφ : Pot F (2 + 1 + 1) φ) (hm : CChild c e F φ parseMp4aR MP4_AUDIO) : CChild c e F φ parseTrakR TRACK :=
  .loop hφ (.one hs hφ (mdia_child hs hφ hm) fun _ a => some a) _ _ _

/-! ### Items -/

theorem Spend.readU8Vec {K} (hφ : Pot F (K + 1) φ) {n : Nat} (hb : 1 ≤ b) :
    Spend c e F φ p b (readU8VecR n) fun _ _ b' => b ≤ b' := by
  refine .bind (.alloc (Q := fun _ q b' => p = q ∧ b = b') ⟨rfl, rfl⟩) ?_
  rintro _ _ _ ⟨rfl, rfl⟩
  exact .read hφ hb fun _ _ _ => by omega

theorem Spend.readUtf8 {K} (hφ : Pot F (K + 1) φ) {n : Nat} (hb : 1 ≤ b) :
    Spend c e F φ p b (readUtf8R n) fun _ _ b' => b ≤ b' := by
  refine .bind (.readU8Vec hφ hb) ?_
  intro bs q b' h
  split
  · exact .pure h
  · exact .fail

theorem Spend.readUtf16 {K} (hφ : Pot F (K + 1) φ) {n : Nat} (hb : 1 ≤ b) :
    Spend c e F φ p b (readUtf16R n) fun _ _ b' => b ≤ b' := by
  refine .bind (.alloc (Q := fun _ q b' => p = q ∧ b = b') ⟨rfl, rfl⟩) ?_
  rintro _ _ _ ⟨rfl, rfl⟩
  refine .bind (.read hφ (Q := fun _ _ b' => b ≤ b') hb fun _ _ _ => by omega) ?_
  intro bs q b' h
  split
  · exact .pure h
  · exact .fail

theorem Spend.data {K} (hφ : Pot F (K + 1) φ) {t n : Nat} (hb : 1 ≤ b) :
    Spend c e F φ p b (Data.parseR t n) fun _ _ b' => b ≤ b' := by
  unfold Data.parseR
  split
  case h_2 => exact .bind (.readUtf8 hφ hb) fun _ _ _ h => .pure h
  case h_3 => exact .bind (.readUtf16 hφ hb) fun _ _ _ h => .pure h
  case h_8 => exact .fail
  all_goals exact .bind (.readU8Vec hφ hb) fun _ _ _ h => .pure h

theorem item_body (hs : SaneC e F) (hφ : Pot F (2 + 1 + 1) φ) : CBody c e F φ itemHandleR := by
  intro s h p b b' hat hb hg
  have hgain := head_gain hφ hat hg
  unfold itemHandleR
  have text : ∀ f : Str → ItemSt, Spend c e F φ (p + h.size.headLen) b' (do
      let (version, _) ← parseFullHeadR
      if version ≠ 0 then failR (.unknownVersion version)
      else do
        let n ← h.size.contentLen.r
        let n ← (subU n 4).r
        let m ← readUtf8R n
        Pure.pure (f m)) fun _ _ b'' => b ≤ b'' := by
    intro f
    refine .bind (.fullHead hφ (Q := fun _ _ b' => b + 24 ≤ b') (by omega) fun _ _ _ => by omega) ?_
    rintro ⟨version, fl⟩ q b1 hb1
    refine .ite (fun _ => .fail) fun _ => .bind (.E (Q := fun _ _ b' => b1 = b') fun _ _ => rfl) ?_
    rintro n q1 _ rfl
    refine .bind (.E (Q := fun _ _ b' => b1 = b') fun _ _ => rfl) ?_
    rintro n q2 _ rfl
    exact .bind (.readUtf8 hφ (by omega)) fun _ _ _ h => .pure (by omega)
  refine .ite (fun _ => ?_) fun _ => .ite (fun _ => text _) fun _ => .ite (fun _ => text _) fun _ => skip_spend hs hφ s hat hg
  refine .bind (.fullHead hφ (Q := fun _ _ b' => b + 24 ≤ b') (by omega) fun _ _ _ => by omega) ?_
  rintro ⟨version, fl⟩ q b1 hb1
  refine .ite (fun _ => .fail) fun _ => ?_
  dsimp only
  refine .bind (.seekCur (b' := b) (Q := fun _ _ b' => b = b') (by omega) fun r hr _ => ?_) ?_
  · have := hφ.anti q r (by omega)
    exact ⟨by omega, rfl⟩
  rintro _ r _ rfl
  refine .bind (.E (Q := fun _ _ b' => b = b') fun _ _ => rfl) ?_
  rintro n q1 _ rfl
  refine .bind (.E (Q := fun _ _ b' => b = b') fun _ _ => rfl) ?_
  rintro n q2 _ rfl
  exact .bind (.data hφ hb) fun _ _ _ h => .pure h

theorem ilst_child (hs : SaneC e F) (hφ : Pot F (2 + 1 + 1) φ) : CChild c e F φ parseIlstR ITEM_LIST := by
  refine .loop hφ (fun s h p b b' hat hb hg => ?_) _ _ _
  refine .ite (fun _ => skip_spend hs hφ s hat hg) fun _ => ?_
  have hgain := head_gain hφ hat hg
  refine .bind (.E (Q := fun _ q y => y = b') fun _ _ => rfl) ?_
  rintro n q _ rfl
  refine .bind (Q := fun _ _ b'' => b ≤ b'') (.bind (loop_spend hφ (item_body hs hφ) _ _ _ _ (by omega)) fun s' r b2 hb2 =>
    .ite (fun _ => .fail) fun _ => .pure (by omega)) fun _ _ _ h => .pure h

theorem meta_child (hs : SaneC e F) (hφ : Pot F (2 + 1 + 1) φ) : CChild c e F φ parseMetaR METADATA := by
  intro h p b b' hat _ hb hg
  have hgain := head_gain hφ hat hg
  refine .bind (.fullHead hφ (Q := fun _ _ b' => b + 24 ≤ b') (by omega) fun _ _ _ => by omega) ?_
  rintro ⟨version, fl⟩ q b1 hb1
  refine .ite (fun _ => .fail) fun _ => ?_
  exact (loop_spend hφ (.one hs hφ (ilst_child hs hφ) fun _ a => some a) _ _ _ _ (by omega)).mono fun _ _ _ h => by omega

theorem udta_child (hs : SaneC e F) (hφ : Pot F (2 + 1 + 1) φ) : CChild c e F φ parseUdtaR USER_DATA :=
  .loop hφ (.one hs hφ (meta_child hs hφ) fun _ a => some a) _ _ _

/-! ### The whole -/

theorem moov_body (hs : SaneC e F) (hφ : Pot F (2 + 1 + 1) φ) (hm : CChild c e F φ parseMp4aR MP4_AUDIO) : CBody c e F φ moovHandleR := by
  intro s h p b b' hat hb hg
  refine .ite (fun hf => (mvhd_child hs hφ).run _ hat hf hb hg) fun _ => .ite (fun hf => (trak_child hs hφ hm).run _ hat hf hb hg) fun _ =>
    .ite (fun hf => (udta_child hs hφ).run _ hat hf hb hg) fun _ => skip_spend hs hφ s hat hg

theorem moov_child (hs : SaneC e F) (hφ : Pot F (2 + 1 + 1) φ) (hm : CChild c e F φ parseMp4aR MP4_AUDIO) :
    CChild c e F φ parseMoovR MOVIE :=
  .loop hφ (moov_body hs hφ hm) _ _ _

theorem topWalk_spend (hs : SaneC e F) (hφ : Pot F (2 + 1 + 1) φ) (hm : CChild c e F φ parseMp4aR MP4_AUDIO) (len : Nat) : ∀ f parsed p b, 1 ≤ b →
    Spend c e F φ p b (topWalkR len f parsed) fun _ _ b' => 1 ≤ b' := by
  intro f
  induction f with
  | zero => intro parsed p b _; exact .outOfFuel
  | succ f ih =>
    intro parsed p b hb
    rw [topWalkR]
    refine .ite (fun _ => .fail) fun _ => ?_
    refine .bind (.parseHead hφ (Q := fun hd q b' => HeadOf F p hd ∧ q = p + hd.size.headLen ∧
      φ (p + hd.size.headLen) + hd.size.headLen + b' = φ p + b) hb fun hd b' h h' => ⟨h, rfl, h'⟩) ?_
    rintro hd _ b1 ⟨hat, rfl, hb1⟩
    have hgain := head_gain hφ hat hb1
    refine .ite (fun hf => (moov_child hs hφ hm hd p b b1 hat hf hb hb1).mono fun _ _ _ h => by omega) fun _ => ?_
    refine .bind (.skipContent hs hφ hat (b' := b) (Q := fun _ _ b' => b = b') (by omega) fun _ _ => rfl) ?_
    rintro _ q _ rfl
    refine .bind (.E (Q := fun _ r b' => q = r ∧ b = b') fun _ _ => ⟨rfl, rfl⟩) ?_
    rintro n _ _ ⟨rfl, rfl⟩
    exact ih n q b hb

/-- The brand, with the head of its atom. -/
theorem ftyp_spend {K} (hφ : Pot F (K + 1) φ) (hb : 1 ≤ b) : Spend c e F φ p b parseFtypR fun _ _ b' => b + 8 * K ≤ b' := by
  refine .bind (.parseHead hφ (Q := fun hd q b' => b + 8 * K ≤ b') hb fun hd b' h h' => head_gain hφ h h') ?_
  intro hd q b1 hb1
  refine .ite (fun _ => .fail) fun _ => ?_
  refine .bind (.E (Q := fun _ r b' => b1 = b') fun _ _ => rfl) ?_
  rintro n r _ rfl
  exact (Spend.readUtf8 hφ (by omega)).mono fun _ _ _ h => by omega

theorem remaining_spend {K} (hφ : Pot F K φ) (hb : 3 ≤ b) : Spend c e F φ p b remainingStreamLenR fun _ q b' => q = p ∧ b' = b - 3 := by
  have hflat : Spend c e F (fun _ => 0) p 3 remainingStreamLenR fun _ q _ => q = p := by
    refine .bind (.tell (b' := 2) (Q := fun n q b' => n = p ∧ b' = 2) (by omega) ⟨rfl, rfl⟩) ?_
    rintro _ _ _ ⟨rfl, rfl⟩
    refine .bind (.seekEnd (b' := 1) (Q := fun _ _ b' => b' = 1) (by omega) rfl) ?_
    rintro _ _ _ rfl
    refine .bind (.E (Q := fun _ _ b' => b' = 1) fun _ _ => rfl) ?_
    rintro _ _ _ rfl
    exact .bind (.seekStart (b' := 0) (Q := fun _ q _ => q = _) (by omega) fun _ => ⟨by omega, rfl⟩) fun _ _ _ h => .pure h
  refine hflat.lift (by omega) ?_
  rintro _ _ _ rfl
  exact ⟨b - 3, by omega, rfl, rfl⟩

theorem readTag_spend (hs : SaneC e F) (hφ : Pot F (2 + 1 + 1) φ) (hm : CChild c e F φ parseMp4aR MP4_AUDIO) : Spend c e F φ p 1 readTagR fun _ _ _ => True := by
  refine .bind (ftyp_spend hφ (Nat.le_refl _)) fun ftyp q b1 hb1 => ?_
  refine .bind (remaining_spend hφ (by omega)) ?_
  rintro len _ _ ⟨rfl, rfl⟩
  refine .bind (.getFuel (Q := fun _ _ b' => b' = b1 - 3) rfl) ?_
  rintro f r _ rfl
  refine .bind (topWalk_spend hs hφ hm len f 0 r (b1 - 3) (by omega)) fun _ _ _ _ => .pure trivial

theorem readTag_cost (hs : SaneC e F) (hφ : Pot F (2 + 1 + 1) φ) (hm : CChild c e F φ parseMp4aR MP4_AUDIO) (pos : Nat) :
    busy c (readTagVia c e F pos).2.tick ≤ φ pos + 1 := by
  have h := readTag_spend (c := c) (p := pos) hs hφ hm { pos := pos } rfl
  unfold readTagVia
  have h0 : busy c 0 = 0 := rfl
  rcases hx : readTagR c e F { pos := pos } with ⟨a | k | _ | _, t'⟩ <;> rw [hx] at h <;> dsimp only at h ⊢
  · obtain ⟨b', h1, _⟩ := h
    rw [h0] at h1
    omega
  all_goals
    rw [h0] at h
    omega

/-- The number of calls when reading. -/
theorem readTag_calls (hs : SaneC e F) (c : Sched) (pos : Nat) :
    busy c (readTagVia c e F pos).2.tick ≤ 4 * (F.length - pos) + 3 * F.length * mp4aCount (F.drop pos) + 1 :=
  readTag_cost hs (readPot_pot F) (mp4a_child hs) pos

/-- If overflows are checked. -/
theorem readTag_calls_checked (hs : SaneC e F) (hc : e.checked = true) (c : Sched) (pos : Nat) :
    busy c (readTagVia c e F pos).2.tick ≤ 4 * (F.length - pos) + 1 :=
  readTag_cost hs (pot_rest F 4) (mp4a_child_checked hs hc (pot_rest F 4)) pos

/-! ### The search before writing -/

theorem leaf_child (hs : SaneC e F) (hφ : Pot F (2 + 1 + 1) φ) (fc : Fourcc) : CChild c e F φ findLeafR fc := by
  intro h p b b' hat _ hb hg
  have hgain := head_gain hφ hat hg
  obtain ⟨hz1, hz2⟩ := hs.size hat
  have hle := hat.le
  have hl := hs.len
  have hflat : Spend c e F (fun _ => 0) (p + h.size.headLen) 3 (findLeafR h.size) fun _ q _ => q = p + h.size.len := by
    refine .bind (.findBounds (Q := fun x q b' => x = ⟨p, h.size⟩ ∧ q = p + h.size.headLen ∧ b' = 2) (b' := 2) (by omega) ⟨rfl, rfl, rfl⟩) ?_
    rintro _ _ _ ⟨rfl, rfl, rfl⟩
    exact .bind (.seekToEnd (x := ⟨p, h.size⟩) hs.max (by show p + h.size.len < _; omega) (by omega) (Nat.le_refl _)
      (Q := fun _ q _ => q = p + h.size.len) rfl) fun _ _ _ h => .pure h
  refine hflat.lift (by omega) ?_
  rintro _ _ b2 rfl
  have := hφ.anti (p + h.size.headLen) (p + h.size.len) (by omega)
  exact ⟨b, by omega, Nat.le_refl _⟩

/-- A container whose bounds are recorded. -/
theorem CChild.bounds (hφ : Pot F (2 + 1 + 1) φ) {σ} {handle : σ → Head → R σ} (hh : CBody c e F φ handle) (s : AtomBounds → σ) (fc : Fourcc) :
    CChild c e F φ (fun size => do let bounds ← findBoundsR size; loopR size.contentLen handle (s bounds) 0) fc := by
  intro h p b b' hat _ hb hg
  have hgain := head_gain hφ hat hg
  refine .bind (.findBounds (Q := fun _ _ y => b = y) (b' := b) (by omega) rfl) ?_
  rintro x q _ rfl
  exact loop_spend hφ hh _ _ _ _ hb

theorem findStbl_child (hs : SaneC e F) (hφ : Pot F (2 + 1 + 1) φ) : CChild c e F φ findStblR SAMPLE_TABLE :=
  .bounds hφ (.two hs hφ (leaf_child hs hφ _) (leaf_child hs hφ _) (fun (s : StblBounds) a => { s with stco := some a })
    fun s a => { s with co64 := some a }) (fun bounds => ({ bounds } : StblBounds)) _

theorem findMinf_child (hs : SaneC e F) (hφ : Pot F (2 + 1 + 1) φ) : CChild c e F φ findMinfR MEDIA_INFORMATION :=
  .bounds hφ (.one hs hφ (findStbl_child hs hφ) fun _ a => some a) (fun _ => none) _

theorem findMdia_child (hs : SaneC e F) (hφ : Pot F (2 + 1 + 1) φ) : CChild c e F φ findMdiaR MEDIA :=
  .bounds hφ (.one hs hφ (findMinf_child hs hφ) fun _ a => some a) (fun _ => none) _

theorem findTrak_child (hs : SaneC e F) (hφ : Pot F (2 + 1 + 1) φ) : CChild c e F φ findTrakR TRACK :=
  .bounds hφ (.one hs hφ (findMdia_child hs hφ) fun _ a => some a) (fun _ => none) _

theorem findMeta_child (hs : SaneC e F) (hφ : Pot F (2 + 1 + 1) φ) : CChild c e F φ findMetaR METADATA := by
  intro h p b b' hat _ hb hg
  have hgain := head_gain hφ hat hg
  refine .bind (.findBounds (Q := fun _ _ y => b = y) (b' := b) (by omega) rfl) ?_
  rintro x q _ rfl
  refine .bind (.fullHead hφ (Q := fun _ _ b' => b ≤ b') hb fun _ _ h => h) ?_
  rintro ⟨version, fl⟩ r b1 hb1
  refine .ite (fun _ => .fail) fun _ => ?_
  exact (loop_spend hφ (.two hs hφ (leaf_child hs hφ _) (leaf_child hs hφ _) (fun (s : MetaBounds) a => { s with hdlr := some a })
    fun s a => { s with ilst := some a }) _ _ _ _ (by omega)).mono fun _ _ _ h => by omega

theorem findUdta_child (hs : SaneC e F) (hφ : Pot F (2 + 1 + 1) φ) : CChild c e F φ findUdtaR USER_DATA :=
  .bounds hφ (.one hs hφ (findMeta_child hs hφ) fun (s : UdtaBounds) a => { s with meta? := some a }) (fun bounds => ({ bounds } : UdtaBounds)) _

theorem findMoov_child (hs : SaneC e F) (hφ : Pot F (2 + 1 + 1) φ) : CChild c e F φ findMoovR MOVIE :=
  .bounds hφ (.two hs hφ (findTrak_child hs hφ) (findUdta_child hs hφ) (fun (s : MoovBounds) a => { s with trak := s.trak ++ [a] })
    fun s a => { s with udta := some a }) (fun bounds => ({ bounds } : MoovBounds)) _

theorem findTop_spend (hs : SaneC e F) (hφ : Pot F (2 + 1 + 1) φ) : Spend c e F φ p 1 findTopR fun _ _ b' => 22 ≤ b' := by
  refine .bind (ftyp_spend hφ (Nat.le_refl _)) fun _ q b1 hb1 => ?_
  refine .bind (remaining_spend hφ (by omega)) ?_
  rintro len _ _ ⟨rfl, rfl⟩
  refine .bind (loop_spend hφ (.two hs hφ (findMoov_child hs hφ) (leaf_child hs hφ _) (fun (s : TopBounds) a => { s with moov := some a })
    fun s a => { s with mdat := some a }) _ _ _ _ (by omega)) fun s q2 b2 hb2 => ?_
  dsimp only
  split
  · exact .pure (by omega)
  · exact .fail

theorem readToEndLoop_cost (c : Sched) (e : Env) (F : Bytes) : ∀ f acc (s : RSt),
    busy c (readToEndLoop f acc c e F s).2.tick ≤ busy c s.tick + (F.length - s.pos) + 1 := by
  intro f
  induction f with
  | zero =>
    intro acc s
    show busy c s.tick ≤ _
    omega
  | succ f ih =>
    intro acc s
    unfold readToEndLoop
    have hc1 := busy_call c s.tick
    rcases hc : c s.tick with k | _ | _ <;> dsimp only
    · have hl : ((F.drop s.pos).take (k + 1)).length = min (k + 1) (F.length - s.pos) := by rw [List.length_take, List.length_drop]
      by_cases he : ((F.drop s.pos).take (k + 1)).isEmpty
      · rw [if_pos he]
        dsimp only
        omega
      · rw [if_neg he]
        have hpos : 0 < ((F.drop s.pos).take (k + 1)).length := by
          cases h : (F.drop s.pos).take (k + 1) with
          | nil => rw [h] at he; simp at he
          | cons => simp
        have := ih (acc ++ (F.drop s.pos).take (k + 1)) { s with pos := s.pos + ((F.drop s.pos).take (k + 1)).length, tick := s.tick + 1 }
        dsimp only at this
        omega
    · have hz : busy c (s.tick + 1) = busy c s.tick := by rw [busy_succ, if_pos hc]; rfl
      have := ih acc { s with tick := s.tick + 1 }
      dsimp only at this
      omega
    · omega

theorem Spend.readToEndFlat (hb : F.length - p + 1 ≤ b) : Spend c e F (fun _ => 0) p b readToEndR fun _ _ _ => True := by
  rintro t rfl
  have h := readToEndLoop_cost c e F e.fuel [] t
  unfold readToEndR
  rcases hx : readToEndLoop e.fuel [] c e F t with ⟨a | k | _ | _, t'⟩ <;> rw [hx] at h <;> dsimp only at h ⊢
  · exact ⟨0, by omega, trivial⟩
  all_goals omega

theorem prepare_spend (hs : SaneC e F) (atoms : List AtomData) :
    Spend c e F (fun _ => 0) p (5 * F.length + 1) (preparePhaseR atoms) fun _ _ _ => True := by
  refine .bind (Q := fun _ _ b' => b' = F.length + 20) ((findTop_spend hs (pot_rest F 4)).lift (by omega)
    fun _ q b' hb' => ⟨F.length + 20, by omega, rfl⟩) ?_
  rintro ⟨mdatPos, moov⟩ q _ rfl
  refine .bind (.E (Q := fun _ _ b' => b' = F.length + 20) fun _ _ => rfl) ?_
  rintro pl q1 _ rfl
  refine .bind (.seekEnd (b' := F.length + 19) (Q := fun _ _ b' => b' = F.length + 19) (by omega) rfl) ?_
  rintro oldLen q2 _ rfl
  refine .bind (.E (Q := fun _ _ b' => b' = F.length + 19) fun _ _ => rfl) ?_
  rintro mv q3 _ rfl
  refine .bind (.alloc (Q := fun _ _ b' => b' = F.length + 19) rfl) ?_
  rintro _ q4 _ rfl
  refine .bind (.seekStart (b' := F.length + 18) (Q := fun _ _ b' => b' = F.length + 18) (by omega) fun _ => ⟨by omega, rfl⟩) ?_
  rintro _ q5 _ rfl
  exact .bind (.readToEndFlat (by omega)) fun _ _ _ _ => .pure trivial

/-- The number of calls of the part of writing that only reads. -/
theorem prepare_calls (hs : SaneC e F) (c : Sched) (atoms : List AtomData) (pos : Nat) :
    busy c (preparePhaseR atoms c e F { pos := pos }).2.tick ≤ 5 * F.length + 1 := by
  have h := prepare_spend (c := c) (p := pos) hs atoms { pos := pos } rfl
  have h0 : busy c 0 = 0 := rfl
  rcases hx : preparePhaseR atoms c e F { pos := pos } with ⟨a | k | _ | _, t'⟩ <;> rw [hx] at h <;> dsimp only at h ⊢
  · obtain ⟨b', h1, _⟩ := h
    rw [h0] at h1
    omega
  all_goals
    rw [h0] at h
    omega

end

end Mp4
