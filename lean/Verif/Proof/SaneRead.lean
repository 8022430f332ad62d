import Verif.Proof.Sane
/-
Reading and searching arbitrary input with sane 64 bit sizes.
-/
namespace Mp4
open Spec

variable {α β : Type} {pn : Prop} {e : Env} {F : Bytes} {p : Nat}

theorem At_drop {n : Nat} (h : p + n ≤ F.length) : At F (p + n) (F.drop (p + n)) :=
  ⟨by rw [List.length_drop]; omega, by rw [List.take_length]⟩

/-- Known bytes at a position are a prefix of what follows. -/
theorem At.drop {c : Bytes} (h : At F p c) : F.drop p = c ++ F.drop (p + c.length) := by
  obtain ⟨A, B, hF, hA⟩ := h.elim
  subst hA
  rw [← List.length_append, hF, List.drop_left, List.append_assoc, List.drop_left]

/-! ### `mvhd` -/

theorem parseMvhd_tot (hs : Sane pn e F) : Ends pn e F parseMvhd MOVIE_HEADER := by
  intro h p hat hfc
  obtain ⟨hz1, hz2⟩ := hs.size hat
  have hle := hat.le
  have hF := hs.fit.len
  have hin := hat.headIn
  rw [hfc] at hin
  refine .bind (.findBounds (Q := fun b q => b = ⟨p, h.size⟩ ∧ q = p + h.size.headLen) ⟨rfl, rfl⟩) ?_
  rintro _ _ ⟨rfl, rfl⟩
  generalize hq0 : p + h.size.headLen = q0 at *
  refine .bind (.parseFullHead (Q := fun x q => x.2.length = 3 ∧ At F q0 (x.1 :: x.2) ∧ q = q0 + 4)
    fun v fl h1 h2 => ⟨h1, h2, rfl⟩) ?_
  rintro ⟨v, fl⟩ _ ⟨hfl, hat1, rfl⟩
  have hfin : ∀ (d q : Nat), q ≤ F.length → (p + h.size.len < q → e.checked = true → pn) → Tot pn e F q
      (do Mp4.seekToEnd ⟨p, h.size⟩; Pure.pure d : P Nat) fun _ r => q0 ≤ r := by
    intro d q hq hlt
    refine .bind (.seekToEnd hs.max (by show p + h.size.len < _; omega) (by omega) hlt) fun _ r hr => .pure ?_
    simp only at hr; omega
  have hlen : (v = 0 ∨ v = 1) → e.checked = true → ¬ pn → hlen h.size.ext + (if v = 0 then 20 else 32) ≤ h.size.len := by
    intro hv hc hp
    refine (hs.ovf hc hp).1 _ _ v (fl ++ F.drop (q0 + 4)) ?_ hv
    have hd := At.drop hat1
    simp only [List.length_cons, hfl] at hd
    rw [hd] at hin
    exact hin
  dsimp only
  refine .ite (fun hv => ?_) fun hv => .ite (fun hv1 => ?_) fun _ => .fail
  · subst hv
    refine .bind (.seekCur (Q := fun _ q => q = q0 + 12) fun q hq _ => by omega) ?_
    rintro _ _ rfl
    refine .bind (.readU32 (Q := fun v q => v < 2^32 ∧ At F (q0 + 12) (be32 v) ∧ q = q0 + 16) fun v h1 h2 => ⟨h1, h2, rfl⟩) ?_
    rintro ts _ ⟨hts, hat2, rfl⟩
    refine .bind (.readU32 (Q := fun v q => v < 2^32 ∧ At F (q0 + 16) (be32 v) ∧ q = q0 + 20) fun v h1 h2 => ⟨h1, h2, rfl⟩) ?_
    rintro du _ ⟨hdu, hat3, rfl⟩
    have hle3 := hat3.le
    rw [be32_length] at hle3
    refine .bind (.mulU (Q := fun n q => q = q0 + 20) (fun h => by omega) fun _ => rfl) ?_
    rintro n _ rfl
    refine .bind (.divU (Q := fun n q => q = q0 + 20) (fun h0 => ?_) fun _ => rfl) ?_
    · by_cases hp : pn
      · exact hp
      · exfalso
        refine (hs.trap hp).2.2.2.1 h.size.ext h.size.len fl ((F.drop (q0 + 4)).take 8) ts (F.drop (q0 + 16)) ?_ hfl ?_ hts h0
        · have h1 : At F q0 ((0 :: fl) ++ (F.drop (q0 + 4)).take 8 ++ be32 ts) := by
            refine At_append.mpr ⟨At_append.mpr ⟨hat1, ?_⟩, ?_⟩
            · have hx : q0 + (0 :: fl : Bytes).length = q0 + 4 := by simp [hfl]
              rw [hx]; exact At_take (by omega)
            · have hx : q0 + ((0 :: fl : Bytes) ++ (F.drop (q0 + 4)).take 8).length = q0 + 12 := by
                simp [hfl]; omega
              rw [hx]; exact hat2
          have hx : ((0 :: fl : Bytes) ++ (F.drop (q0 + 4)).take 8 ++ be32 ts).length = 16 := by
            simp [hfl, be32_length]; omega
          have := h1.drop
          rw [hx] at this
          rw [this] at hin
          exact hin
        · rw [List.length_take, List.length_drop]; omega
    · rintro d _ rfl
      refine hfin _ _ (by omega) fun hlt hc => ?_
      by_cases hp : pn
      · exact hp
      · have := hlen (.inl rfl) hc hp
        simp only [if_true] at this
        rw [headLen_hlen] at *
        omega
  · subst hv1
    refine .bind (.seekCur (Q := fun _ q => q = q0 + 20) fun q hq _ => by omega) ?_
    rintro _ _ rfl
    refine .bind (.readU32 (Q := fun v q => v < 2^32 ∧ At F (q0 + 20) (be32 v) ∧ q = q0 + 24) fun v h1 h2 => ⟨h1, h2, rfl⟩) ?_
    rintro ts _ ⟨hts, hat2, rfl⟩
    refine .bind (.readU64 (Q := fun v q => v < 2^64 ∧ At F (q0 + 24) (be64 v) ∧ q = q0 + 32) fun v h1 h2 => ⟨h1, h2, rfl⟩) ?_
    rintro du _ ⟨hdu, hat3, rfl⟩
    have hle3 := hat3.le
    rw [be64_length] at hle3
    have h1 : At F q0 ((1 :: fl) ++ (F.drop (q0 + 4)).take 16 ++ be32 ts) := by
      refine At_append.mpr ⟨At_append.mpr ⟨hat1, ?_⟩, ?_⟩
      · have hx : q0 + (1 :: fl : Bytes).length = q0 + 4 := by simp [hfl]
        rw [hx]; exact At_take (by omega)
      · have hx : q0 + ((1 :: fl : Bytes) ++ (F.drop (q0 + 4)).take 16).length = q0 + 20 := by
          simp [hfl]; omega
        rw [hx]; exact hat2
    have hx : ((1 :: fl : Bytes) ++ (F.drop (q0 + 4)).take 16 ++ be32 ts).length = 24 := by
      simp [hfl, be32_length]; omega
    have hx16 : ((F.drop (q0 + 4)).take 16).length = 16 := by rw [List.length_take, List.length_drop]; omega
    refine .bind (.mulU (Q := fun n q => q = q0 + 32) (fun hbig hc => ?_) fun _ => rfl) ?_
    · by_cases hp : pn
      · exact hp
      · exfalso
        have h2 : At F q0 (((1 :: fl) ++ (F.drop (q0 + 4)).take 16 ++ be32 ts) ++ be64 du) :=
          At_append.mpr ⟨h1, by rw [hx]; exact hat3⟩
        have := h2.drop
        rw [this] at hin
        have := (hs.ovf hc hp).2.1 _ _ fl ((F.drop (q0 + 4)).take 16) (be32 ts) du _ hin hfl hx16 rfl hdu
        omega
    rintro n _ rfl
    refine .bind (.divU (Q := fun n q => q = q0 + 32) (fun h0 => ?_) fun _ => rfl) ?_
    · by_cases hp : pn
      · exact hp
      · exfalso
        refine (hs.trap hp).2.2.2.2 h.size.ext h.size.len fl ((F.drop (q0 + 4)).take 16) ts (F.drop (q0 + 24)) ?_ hfl hx16 hts h0
        have := h1.drop
        rw [hx] at this
        rw [this] at hin
        exact hin
    · rintro d _ rfl
      refine hfin _ _ (by omega) fun hlt hc => ?_
      by_cases hp : pn
      · exact hp
      · have := hlen (.inr rfl) hc hp
        rw [if_neg (by decide)] at this
        rw [headLen_hlen] at *
        omega

/-! ### Descriptors -/

theorem descHeadLoop_tot (hs : Sane pn e F) : ∀ (k h l q : Nat),
    Tot pn e F q (descHeadLoop k h l) fun x r => q ≤ r ∧ h ≤ x.1 ∧ x.1 ≤ h + k ∧ x.2 < (l + 1) * 128 ^ k ∧ (r = q ∨ r ≤ F.length)
  | 0, h, l, q => .pure ⟨Nat.le_refl _, Nat.le_refl _, Nat.le_refl _, by simp, .inl rfl⟩
  | k+1, h, l, q => by
    refine .bind (.readU8 (Q := fun v r => r = q + 1 ∧ q + 1 ≤ F.length) fun v h1 => ⟨rfl, h1.le⟩) ?_
    rintro b _ ⟨rfl, hle⟩
    have hb : b.toNat % 128 < 128 := Nat.mod_lt _ (by decide)
    have h128 : (1 : Nat) ≤ 128 ^ k := Nat.one_le_pow _ _ (by decide)
    have hl : (l * 128 + b.toNat % 128 + 1) * 128 ^ k ≤ (l + 1) * 128 ^ (k + 1) := by
      rw [Nat.pow_succ, Nat.mul_comm (128 ^ k) 128, ← Nat.mul_assoc]
      exact Nat.mul_le_mul_right _ (by omega)
    dsimp only
    refine .ite (fun _ => .pure ⟨by omega, by omega, by omega, ?_, .inr hle⟩) fun _ => ?_
    · have : (l * 128 + b.toNat % 128 + 1) * 1 ≤ (l * 128 + b.toNat % 128 + 1) * 128 ^ k := Nat.mul_le_mul_left _ h128
      omega
    · refine (descHeadLoop_tot hs k (h + 1) _ (q + 1)).mono fun x r hx => ?_
      exact ⟨by omega, by omega, by omega, by omega, by omega⟩

theorem parseDescHead_tot (hs : Sane pn e F) (q : Nat) :
    Tot pn e F q parseDescHead fun x r => q + 1 ≤ r ∧ x.2.1 ≤ 5 ∧ x.2.2 < 2^28 ∧ r ≤ F.length := by
  refine .bind (.readU8 (Q := fun v r => r = q + 1 ∧ q + 1 ≤ F.length) fun v h1 => ⟨rfl, h1.le⟩) ?_
  rintro b _ ⟨rfl, hle⟩
  refine .bind (descHeadLoop_tot hs 4 1 0 (q + 1)) fun x r hx => .pure ?_
  exact ⟨by omega, by dsimp only; omega, by dsimp only; omega, by omega⟩

/-- What a descriptor does: it ends, further on. -/
def DescEnds (pn : Prop) (e : Env) (F : Bytes) (handle : Mp4a → Nat → P Mp4a) : Prop :=
  ∀ i n q, n < 2^28 → q < 2^63 → Tot pn e F q (handle i n) fun _ r => q ≤ r ∧ r < 2^63

theorem descWalk_tot {wanted : UInt8} {handle : Mp4a → Nat → P Mp4a} {limit : Nat} (hs : Sane pn e F)
    (hl : limit < 2^28) (hh : DescEnds pn e F handle) :
    ∀ f i parsed q, F.length < q + f → 0 < f → q < 2^63 →
      Tot pn e F q (descWalk wanted handle limit f i parsed) fun _ r => q ≤ r ∧ r < 2^63 := by
  have hF := hs.fit.len
  have hm := hs.max
  intro f
  induction f with
  | zero => intro i parsed q _ h; omega
  | succ f ih =>
    intro i parsed q hf _ hq
    rw [descWalk]
    refine .ite (fun hlt => ?_) fun _ => .pure ⟨Nat.le_refl _, hq⟩
    refine .bind (parseDescHead_tot hs q) ?_
    rintro ⟨tag, hl, dl⟩ q1 ⟨h1, h2, h3, h4⟩
    dsimp only at h1 h2 h3 h4 ⊢
    refine .bind (Q := fun _ r => q1 ≤ r ∧ r < 2^63) (.ite (fun _ => hh _ _ _ h3 (by omega)) fun _ => ?_) fun i' q2 h5 => ?_
    · refine .bind (Q := fun _ r => q1 ≤ r ∧ r < 2^63) (.seekCur fun r hr _ => ?_) fun _ _ hq => .pure hq
      rw [asI64_small (by omega)] at hr
      omega
    · refine .bind (.addU (Q := fun n r => q2 = r ∧ n = hl + dl) (by omega) ⟨rfl, rfl⟩) ?_
      rintro _ _ ⟨rfl, rfl⟩
      refine .bind (.addU (Q := fun n r => q2 = r) (by omega) rfl) ?_
      rintro _ _ rfl
      exact (ih i' _ q2 (by omega) (by omega) (by omega)).mono fun _ r hr => ⟨by omega, hr.2⟩

theorem parseDsDesc_tot (hs : Sane pn e F) (hc : e.checked = true → pn) : DescEnds pn e F parseDsDesc := by
  have hF := hs.fit.len
  have hm := hs.max
  intro i n q hn hq
  refine .bind (.readU16 (Q := fun v r => r = q + 2) fun v h1 => rfl) ?_
  rintro v _ rfl
  dsimp only
  refine .bind (.subU (Q := fun c r => r = q + 2 ∧ (2 ≤ n ∧ c = n - 2 ∨ n < 2 ∧ c = 2^64 + n - 2)) (fun h => ⟨rfl, .inl ⟨h, rfl⟩⟩)
    (fun _ h => hc h) fun h _ => ⟨rfl, .inr ⟨h, rfl⟩⟩) ?_
  rintro c _ ⟨rfl, hc⟩
  refine .bind (Q := fun _ r => q ≤ r ∧ r < 2^63) (.seekCur fun r hr _ => ?_) fun _ _ hq => .pure hq
  unfold asI64 at hr
  split at hr <;> omega

theorem parseDcDesc_tot (hs : Sane pn e F) (hc : e.checked = true → pn) : DescEnds pn e F parseDcDesc := by
  have hF := hs.fit.len
  have hm := hs.max
  have hfu := hs.fit.fuel
  intro i n q hn hq
  refine .bind (.seekCur (Q := fun _ r => r = q + 5) fun r hr _ => by omega) ?_
  rintro _ _ rfl
  refine .bind (.readU32 (Q := fun v r => r = q + 9 ∧ r ≤ F.length) fun v _ h => ⟨rfl, h.le⟩) ?_
  rintro a _ ⟨rfl, -⟩
  refine .bind (.readU32 (Q := fun v r => r = q + 13 ∧ r ≤ F.length) fun v _ h => ⟨rfl, h.le⟩) ?_
  rintro a _ ⟨rfl, hle⟩
  refine .bind (.getFuel (Q := fun f r => f = e.fuel ∧ r = q + 13) ⟨rfl, rfl⟩) ?_
  rintro _ _ ⟨rfl, rfl⟩
  exact (descWalk_tot hs hn (parseDsDesc_tot hs hc) _ _ _ _ (by omega) (by omega) (by omega)).mono
    fun _ r hr => ⟨by omega, hr.2⟩

theorem parseEsDesc_tot (hs : Sane pn e F) (hc : e.checked = true → pn) : DescEnds pn e F parseEsDesc := by
  have hF := hs.fit.len
  have hm := hs.max
  have hfu := hs.fit.fuel
  intro i n q hn hq
  refine .bind (.seekCur (Q := fun _ r => r = q + 3 ∧ r < 2^63) fun r hr _ => by omega) ?_
  rintro _ _ ⟨rfl, h63⟩
  refine .bind (.getFuel (Q := fun f r => f = e.fuel ∧ r = q + 3) ⟨rfl, rfl⟩) ?_
  rintro _ _ ⟨rfl, rfl⟩
  exact (descWalk_tot hs hn (parseDcDesc_tot hs hc) _ _ _ _ (by omega) (by omega) (by omega)).mono
    fun _ r hr => ⟨by omega, hr.2⟩

theorem parseEsds_tot (hs : Sane pn e F) (hc : e.checked = true → pn) (i : Mp4a) (s : Size) (q : Nat) :
    Tot pn e F q (parseEsds i s) fun _ r => q ≤ r ∧ r < 2^63 := by
  have hF := hs.fit.len
  refine .bind .fullHeadPos ?_
  rintro ⟨v, fl⟩ _ rfl
  dsimp only
  refine .ite (fun _ => .fail) fun _ => .bind (parseDescHead_tot hs _) ?_
  rintro ⟨tag, hl, dl⟩ q1 ⟨h1, h2, h3, h4⟩
  dsimp only at h1 h2 h3 h4 ⊢
  refine .ite (fun _ => .fail) fun _ => ?_
  have hsub : ∀ a b, Tot pn e F q1 (subU a b).p fun _ r => q1 = r := fun a b =>
    .subU (fun _ => rfl) (fun _ h => hc h) fun _ _ => rfl
  refine .bind (hsub _ _) ?_
  rintro n _ rfl
  refine .bind (hsub _ _) ?_
  rintro n _ rfl
  refine .bind (hsub _ _) ?_
  rintro n _ rfl
  exact (parseEsDesc_tot hs hc _ _ _ (by omega) (by omega)).mono fun _ r hr => ⟨by omega, hr.2⟩

theorem parseMp4a_tot (hs : Sane pn e F) : Ends pn e F parseMp4a MP4_AUDIO := by
  intro h p hat hfc
  obtain ⟨hz1, hz2⟩ := hs.size hat
  have hle := hat.le
  have hF := hs.fit.len
  have hin := hat.headIn
  rw [hfc] at hin
  by_cases hcp : e.checked = true → pn
  · refine .bind (.findBounds (Q := fun b q => b = ⟨p, h.size⟩ ∧ q = p + h.size.headLen) ⟨rfl, rfl⟩) ?_
    rintro _ _ ⟨rfl, rfl⟩
    refine .bind (.seekCur (Q := fun _ r => True) fun r hr _ => trivial) ?_
    rintro _ q1 -
    refine .bind (.parseHead (Q := fun hd q => True) fun hd h => trivial) ?_
    rintro hd q2 -
    refine .ite (fun _ => .fail) fun _ => ?_
    refine .bind (parseEsds_tot hs hcp _ _ _) fun _ q3 h3 => ?_
    refine .bind (.seekToEnd hs.max (by show p + h.size.len < _; omega) h3.2 fun _ hc => hcp hc) fun _ r hr => .pure ?_
    simp only at hr
    omega
  · have hc : e.checked = true := by
      by_cases hc : e.checked = true
      · exact hc
      · exact absurd (fun h => absurd h hc) hcp
    have hp : ¬ pn := fun hp => hcp fun _ => hp
    obtain ⟨body, rest', cs, hr, hn, hb⟩ := (hs.ovf hc hp).2.2 _ _ _ hin
    have hser : (⟨h.size.ext, cc 'm' 'p' '4' 'a', body⟩ : Box).ser = headBytes h.size.ext h.fourcc h.size.len ++ body := by
      rw [hn, hfc]
      simp only [Box.ser, Box.head, headBytes, hlen, Nat.add_comm]
      cases h.size.ext <;> rfl
    have hatb : At F p (⟨h.size.ext, cc 'm' 'p' '4' 'a', body⟩ : Box).ser := by
      rw [hser]
      refine At_append.mpr ⟨hat.1, ?_⟩
      rw [headBytes_length, ← headLen_hlen]
      exact (hr ▸ At_drop hle).left
    have := parseMp4a_at hs.fit hatb hb
    have hsz : (⟨h.size.ext, cc 'm' 'p' '4' 'a', body⟩ : Box).size = h.size := by
      have : h.size = ⟨h.size.ext, h.size.len⟩ := rfl
      rw [this, hn]; rfl
    rw [hsz] at this
    unfold Tot
    have h2 : (⟨h.size.ext, cc 'm' 'p' '4' 'a', body⟩ : Box).headLen = h.size.headLen := rfl
    rw [h2] at this
    rw [this]
    dsimp only
    rw [Box.ser_length, h2]
    omega

/-! ### Containers -/

theorem parseStsd_tot (hs : Sane pn e F) : Ends pn e F parseStsd SAMPLE_TABLE_SAMPLE_DESCRIPTION := by
  intro h p hat _
  refine .bind .fullHeadPos ?_
  rintro ⟨v, fl⟩ _ rfl
  dsimp only
  refine .ite (fun _ => .fail) fun _ => .bind (.seekCur (Q := fun _ r => r = p + h.size.headLen + 8) fun r hr _ => by omega) ?_
  rintro _ _ rfl
  exact (container_tot hs.toSaneB hat (one_child hs.toSaneB (parseMp4a_tot hs) fun _ a => some a) _ _ _).mono fun _ r hr => by omega

theorem parseStbl_tot (hs : Sane pn e F) : Ends pn e F parseStbl SAMPLE_TABLE := fun _ _ hat _ =>
  container_tot hs.toSaneB hat (one_child hs.toSaneB (parseStsd_tot hs) fun _ a => some a) _ _ _
theorem parseMinf_tot (hs : Sane pn e F) : Ends pn e F parseMinf MEDIA_INFORMATION := fun _ _ hat _ =>
  container_tot hs.toSaneB hat (one_child hs.toSaneB (parseStbl_tot hs) fun _ a => some a) _ _ _
theorem parseMdia_tot (hs : Sane pn e F) : Ends pn e F parseMdia MEDIA := fun _ _ hat _ =>
  container_tot hs.toSaneB hat (one_child hs.toSaneB (parseMinf_tot hs) fun _ a => some a) _ _ _
theorem parseTrak_tot (hs : Sane pn e F) : Ends pn e F parseTrak TRACK := fun _ _ hat _ =>
  container_tot hs.toSaneB hat (one_child hs.toSaneB (parseMdia_tot hs) fun _ a => some a) _ _ _

/-- `mean` and `name`. -/
theorem text_tot (hs : Sane pn e F) {h : Head} (hat : HeadOf F p h) (ht : ¬ pn → h.size.headLen + 4 ≤ h.size.len)
    (g : Str → ItemSt) (q : Nat) :
    Tot pn e F q (do
      let n ← h.size.contentLen.p
      let n ← (subU n 4).p
      let m ← readUtf8 n
      Pure.pure (g m) : P ItemSt) fun _ r => q ≤ r := by
  obtain ⟨hz1, hz2⟩ := hs.size hat
  have hp : h.size.len < h.size.headLen + 4 → pn := fun hlt => by
    by_cases hp : pn
    · exact hp
    · exact absurd (ht hp) (by omega)
  refine .bind (.E (Q := fun n r => n = h.size.len - h.size.headLen ∧ q = r) (contentLen_sane hz1) ⟨rfl, rfl⟩) ?_
  rintro _ _ ⟨rfl, rfl⟩
  refine .bind (.subU (Q := fun c r => q = r ∧ (2^63 ≤ c → pn)) (fun h => ⟨rfl, fun _ => by omega⟩)
    (fun _ _ => hp (by omega)) fun _ _ => ⟨rfl, fun _ => hp (by omega)⟩) ?_
  rintro c _ ⟨rfl, hc⟩
  exact .bind (.readUtf8 (Q := fun _ r => q ≤ r) hc fun _ _ => by omega) fun _ _ hq => .pure hq

theorem itemHandle_tot (hs : Sane pn e F) (s : ItemSt) (h : Head) (p : Nat) (hat : HeadOf F p h) :
    Tot pn e F (p + h.size.headLen) (itemHandle s h) fun _ q => p + h.size.headLen ≤ q := by
  obtain ⟨hz1, hz2⟩ := hs.size hat
  have hin := hat.headIn
  refine .ite (fun hf => ?_) fun _ => .ite (fun hf => ?_) fun _ => .ite (fun hf => ?_) fun _ => skip_child hs.toSaneB s hat
  · rw [hf] at hin
    refine .bind .fullHeadPos ?_
    rintro ⟨v, fl⟩ _ rfl
    dsimp only
    refine .ite (fun _ => .fail) fun _ => .bind (.seekCur (Q := fun _ r => r = p + h.size.headLen + 8) fun r hr _ => by omega) ?_
    rintro _ _ rfl
    have hp : h.size.len < h.size.headLen + 8 → pn := fun hlt => by
      by_cases hp : pn
      · exact hp
      · have := (hs.trap hp).1 _ _ _ hin
        rw [← headLen_hlen] at this
        omega
    refine .bind (.E (Q := fun n r => n = h.size.len - h.size.headLen ∧ r = p + h.size.headLen + 8) (contentLen_sane hz1) ⟨rfl, rfl⟩) ?_
    rintro _ _ ⟨rfl, rfl⟩
    refine .bind (.subU (Q := fun c r => r = p + h.size.headLen + 8 ∧ (2^63 ≤ c → pn)) (fun h => ⟨rfl, fun _ => by omega⟩)
      (fun _ _ => hp (by omega)) fun _ _ => ⟨rfl, fun _ => hp (by omega)⟩) ?_
    rintro c _ ⟨rfl, hc⟩
    exact .bind (.dataParse hc) fun _ _ hq => .pure (by omega)
  · rw [hf] at hin
    refine .bind .fullHeadPos ?_
    rintro ⟨v, fl⟩ _ rfl
    dsimp only
    exact .ite (fun _ => .fail) fun _ => (text_tot hs hat (fun hp => (hs.trap hp).2.1 _ _ _ hin)
      (fun m => { s with mean := some m }) _).mono fun _ r hr => by omega
  · rw [hf] at hin
    refine .bind .fullHeadPos ?_
    rintro ⟨v, fl⟩ _ rfl
    dsimp only
    exact .ite (fun _ => .fail) fun _ => (text_tot hs hat (fun hp => (hs.trap hp).2.2.1 _ _ _ hin)
      (fun m => { s with name := some m }) _).mono fun _ r hr => by omega

theorem parseItem_tot (hs : Sane pn e F) (fc : Fourcc) {n : Nat} (hn : n < 2^63) (q : Nat) :
    Tot pn e F q (parseItem fc n) fun _ r => q ≤ r :=
  .bind (loop_tot hs.toSaneB (show (Pure.pure n : E Nat) e = .ok n from rfl) hn (itemHandle_tot hs) _ _ _)
    fun _ _ hq => .ite (fun _ => .fail) fun _ => .pure hq

theorem parseIlst_tot (hs : Sane pn e F) : Ends pn e F parseIlst ITEM_LIST := fun _ _ hat _ =>
  container_tot hs.toSaneB hat (fun s h p hat => .ite (fun _ => skip_child hs.toSaneB s hat) fun _ => by
    obtain ⟨hz1, hz2⟩ := hs.size hat
    refine .bind (.E (Q := fun n r => n < 2^63 ∧ r = p + h.size.headLen) (contentLen_sane hz1) ⟨by omega, rfl⟩) ?_
    rintro n _ ⟨hn, rfl⟩
    exact .bind (parseItem_tot hs _ hn _) fun _ _ hq => .pure hq) _ _ _

theorem parseMeta_tot (hs : Sane pn e F) : Ends pn e F parseMeta METADATA := by
  intro h p hat _
  refine .bind .fullHeadPos ?_
  rintro ⟨v, fl⟩ _ rfl
  dsimp only
  refine .ite (fun _ => .fail) fun _ => ?_
  exact (container_tot hs.toSaneB hat (one_child hs.toSaneB (parseIlst_tot hs) fun _ a => some a) _ _ _).mono fun _ r hr => by omega

theorem parseUdta_tot (hs : Sane pn e F) : Ends pn e F parseUdta USER_DATA := fun _ _ hat _ =>
  container_tot hs.toSaneB hat (one_child hs.toSaneB (parseMeta_tot hs) fun _ a => some a) _ _ _

theorem parseMoov_tot (hs : Sane pn e F) : Ends pn e F parseMoov MOVIE := fun _ _ hat _ =>
  container_tot hs.toSaneB hat (fun s _ _ hat => .ite (fun hf => (parseMvhd_tot hs).child (fun a => { s with mvhd := some a }) hat hf)
    fun _ => .ite (fun hf => (parseTrak_tot hs).child (fun a => { s with trak := s.trak ++ [a] }) hat hf)
    fun _ => .ite (fun hf => (parseUdta_tot hs).child (fun a => { s with udta := some a }) hat hf)
    fun _ => skip_child hs.toSaneB s hat) _ _ _

theorem parseFtyp_tot (hs : SaneB e F) (q : Nat) : Tot pn e F q parseFtyp fun _ r => r ≤ F.length := by
  refine .bind (.parseHead (Q := fun hd r => HeadOf F q hd ∧ r = q + hd.size.headLen) fun hd h => ⟨h, rfl⟩) ?_
  rintro h _ ⟨hat, rfl⟩
  obtain ⟨hz1, hz2⟩ := hs.size hat
  have := hat.le
  refine .ite (fun _ => .fail) fun _ => ?_
  refine .bind (.E (Q := fun n r => n < 2^63 ∧ r = q + h.size.headLen) (contentLen_sane hz1) ⟨by omega, rfl⟩) ?_
  rintro n _ ⟨hn, rfl⟩
  exact .readUtf8 (fun _ => by omega) fun _ _ => by omega

theorem remaining_tot {q : Nat} (hq : q ≤ F.length) :
    Tot pn e F q remainingStreamLen fun n r => n ≤ F.length ∧ q = r := by
  refine .bind (.tell (Q := fun c r => q = c) rfl) ?_
  rintro _ _ rfl
  refine .bind (.seekEnd (Q := fun c r => c = F.length) rfl) ?_
  rintro _ _ rfl
  refine .bind (.subU (Q := fun c r => c ≤ F.length) (fun _ => by omega) (fun _ => by omega) fun _ => by omega) ?_
  intro n r hn
  exact .bind (.seekStart (Q := fun _ r => q = r) fun _ => rfl) fun _ _ hr => .pure ⟨hn, hr⟩

theorem topWalk_tot (hs : Sane pn e F) {len : Nat} (hl : len < 2^63) :
    ∀ f parsed p, F.length < p + 8 * f → 0 < f → Tot pn e F p (topWalk len f parsed) fun _ _ => True := by
  intro f
  induction f with
  | zero => intro parsed p _ h; omega
  | succ f ih =>
    intro parsed p hf _
    rw [topWalk]
    refine .ite (fun _ => .fail) fun hlt => ?_
    refine .bind (.parseHead (Q := fun hd q => HeadOf F p hd ∧ q = p + hd.size.headLen) fun hd h => ⟨h, rfl⟩) ?_
    rintro hd _ ⟨hat, rfl⟩
    have hsz := hs.size hat
    have hle := hat.le
    have h8 : 8 ≤ hd.size.headLen := by unfold Size.headLen; split <;> omega
    refine .ite (fun hf => (parseMoov_tot hs hd p hat hf).mono fun _ _ _ => trivial) fun _ => ?_
    refine .bind (.skipContent hs.toSaneB hat) fun _ q hq => ?_
    refine .bind (.addU (Q := fun n r => q = r) (by omega) rfl) ?_
    rintro n _ rfl
    exact ih n q (by omega) (by omega)

theorem readTagP_tot (hs : Sane pn e F) (q : Nat) : Tot pn e F q readTagP fun _ _ => True := by
  have hF := hs.fit.len
  have hfu := hs.fit.fuel
  refine .bind (parseFtyp_tot hs.toSaneB q) fun _ q1 h1 => .bind (remaining_tot h1) ?_
  rintro n _ ⟨hn, rfl⟩
  refine .bind (.getFuel (Q := fun f r => f = e.fuel) rfl) ?_
  rintro _ r rfl
  exact .bind (topWalk_tot hs (by omega) _ _ _ (by omega) (by omega)) fun _ _ _ => .pure trivial

theorem readTag_tot (hs : Sane pn e F) (q : Nat) : readTag e F q ≠ .fuel ∧ (readTag e F q = .panic → pn) := by
  have h := readTagP_tot hs q
  unfold Tot at h
  rw [readTag]
  split at h <;> rename_i hm <;> rw [hm] <;> simp [Out.val]
  all_goals exact h

/-! ### The search phase of writing -/

theorem findLeaf_tot (hs : SaneB e F) (fc : Fourcc) : Ends pn e F findLeaf fc := by
  intro h p hat _
  obtain ⟨hz1, hz2⟩ := hs.size hat
  have hle := hat.le
  have hF := hs.fit.len
  refine .bind (.findBounds (Q := fun b q => b = ⟨p, h.size⟩ ∧ q = p + h.size.headLen) ⟨rfl, rfl⟩) ?_
  rintro _ _ ⟨rfl, rfl⟩
  refine .bind (.seekToEnd hs.max (by show p + h.size.len < _; omega) (by omega) fun hlt => ?_) fun _ r hr => .pure ?_
  · simp only at hlt; omega
  · simp only at hr; omega

/-- A searched container. -/
theorem find_tot {σ} {handle : σ → Head → P σ} (hs : SaneB e F) {h : Head} (hat : HeadOf F p h)
    (hh : ∀ s h p, HeadOf F p h → Tot pn e F (p + h.size.headLen) (handle s h) fun _ q => p + h.size.headLen ≤ q)
    (s : AtomBounds → σ) :
    Tot pn e F (p + h.size.headLen) (do let b ← findBounds h.size; loop h.size.contentLen handle (s b) 0)
      fun _ q => p + h.size.headLen ≤ q := by
  refine .bind (.findBounds (Q := fun b q => q = p + h.size.headLen) rfl) ?_
  rintro b _ rfl
  exact container_tot hs hat hh _ _ _

theorem findStbl_tot (hs : SaneB e F) : Ends pn e F findStbl SAMPLE_TABLE := fun _ _ hat _ =>
  find_tot (σ := StblBounds) hs hat (fun s _ _ hat =>
    .ite (fun hf => (findLeaf_tot hs _).child (fun a => { s with stco := some a }) hat hf)
    fun _ => .ite (fun hf => (findLeaf_tot hs _).child (fun a => { s with co64 := some a }) hat hf)
    fun _ => skip_child hs s hat) fun b => { bounds := b }
theorem findMinf_tot (hs : SaneB e F) : Ends pn e F findMinf MEDIA_INFORMATION := fun _ _ hat _ =>
  find_tot hs hat (one_child hs (findStbl_tot hs) fun _ a => some a) fun _ => none
theorem findMdia_tot (hs : SaneB e F) : Ends pn e F findMdia MEDIA := fun _ _ hat _ =>
  find_tot hs hat (one_child hs (findMinf_tot hs) fun _ a => some a) fun _ => none
theorem findTrak_tot (hs : SaneB e F) : Ends pn e F findTrak TRACK := fun _ _ hat _ =>
  find_tot hs hat (one_child hs (findMdia_tot hs) fun _ a => some a) fun _ => none

theorem findMeta_tot (hs : SaneB e F) : Ends pn e F findMeta METADATA := by
  intro h p hat _
  refine .bind (.findBounds (Q := fun b q => q = p + h.size.headLen) rfl) ?_
  rintro b _ rfl
  refine .bind .fullHeadPos ?_
  rintro ⟨v, fl⟩ _ rfl
  dsimp only
  refine .ite (fun _ => .fail) fun _ => ?_
  exact (container_tot hs hat (fun s _ _ hat =>
    .ite (fun hf => (findLeaf_tot hs _).child (fun a => { s with hdlr := some a }) hat hf)
    fun _ => .ite (fun hf => (findLeaf_tot hs _).child (fun a => { s with ilst := some a }) hat hf)
    fun _ => skip_child hs s hat) _ _ _).mono fun _ r hr => by omega

theorem findUdta_tot (hs : SaneB e F) : Ends pn e F findUdta USER_DATA := fun _ _ hat _ =>
  find_tot (σ := UdtaBounds) hs hat (one_child hs (findMeta_tot hs) fun (s : UdtaBounds) a => { s with meta? := some a }) fun b => { bounds := b }

theorem findMoov_tot (hs : SaneB e F) : Ends pn e F findMoov MOVIE := fun _ _ hat _ =>
  find_tot (σ := MoovBounds) hs hat (fun s _ _ hat =>
    .ite (fun hf => (findTrak_tot hs).child (fun a => { s with trak := s.trak ++ [a] }) hat hf)
    fun _ => .ite (fun hf => (findUdta_tot hs).child (fun a => { s with udta := some a }) hat hf)
    fun _ => skip_child hs s hat) fun b => { bounds := b }

theorem findTop_tot (hs : SaneB e F) (q : Nat) : Tot pn e F q findTop fun _ _ => True := by
  have hF := hs.fit.len
  refine .bind (parseFtyp_tot hs q) fun _ q1 h1 => .bind (remaining_tot h1) ?_
  rintro n _ ⟨hn, rfl⟩
  refine .bind (loop_tot hs (show (Pure.pure n : E Nat) e = .ok n from rfl) (by omega) (fun s _ _ hat =>
    .ite (fun hf => (findMoov_tot hs).child (fun a => { s with moov := some a }) hat hf)
    fun _ => .ite (fun hf => (findLeaf_tot hs _).child (fun a => { s with mdat := some a }) hat hf)
    fun _ => skip_child hs s hat) _ _ _) fun s _ _ => ?_
  cases s.moov <;> first | exact .pure trivial | exact .fail

end Mp4
