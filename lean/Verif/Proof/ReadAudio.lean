import Verif.Proof.ReadGeneric
/-
Reading the movie header and the audio description.
-/
namespace Mp4
open Spec

theorem seekCur_lit {e : Env} {F : Bytes} {p : Nat} {i : Int} (n : Nat) (hi : i = n) (h : p + n ≤ e.maxPos) :
    seekCur i e F p = .ok ((), p + n) := by
  subst hi; exact seekCur_ok h

theorem parseMvhd_at {e F} {b : Box} {q nanos} (hF : Fit e F) (hat : At F q b.ser)
    (h : MvhdBody b.body nanos) :
    parseMvhd b.size e F (q + b.headLen) = .ok (nanos, q + b.ser.length) := by
  obtain ⟨flags, times, ts, dur, rest, hfl, hts0, hts, rfl, h⟩ := h
  have hle := hat.le
  have hb := Box.body_at hat
  have hsl := b.ser_length
  have h1 := hF.len
  have h2 := hF.pos
  have hdiv : ∀ n, divU n ts e = .ok (n / ts) := fun n => by rw [divU, if_neg (by omega)]
  rw [parseMvhd, P.bind_ok (findBounds_box b e)]
  rcases h with ⟨htl, hd, hbody⟩ | ⟨htl, hd, hbody⟩
  · have hbl : b.body.length = 4 + 8 + 4 + 4 + rest.length := by
      rw [hbody]; simp [hfl, htl, be32_length]; omega
    rw [hbody] at hb
    simp only [List.cons_append] at hb
    have a1 : At F (q + b.headLen) (0 :: flags) := hb.left.left.left.left
    have a2 := (hb.left.left.right (a := 0 :: (flags ++ times)) (n := 12) (by simp [hfl, htl]))
    have a3 := (hb.left.right (a := 0 :: (flags ++ times ++ be32 ts)) (n := 16)
      (by simp [hfl, htl, be32_length]))
    rw [P.bind_ok (parseFullHead_at a1 hfl e)]
    simp only [if_true]
    rw [P.bind_ok (seekCur_lit (i := 8) 8 rfl (by omega))]
    rw [P.bind_ok (readU32_at (n := ts) (by simpa [Nat.add_assoc] using a2) hts e)]
    rw [P.bind_ok (readU32_at (n := dur) (by simpa [Nat.add_assoc] using a3) hd e)]
    have hm : mulU dur 1000000000 e = .ok (dur * 1000000000) := by rw [mulU, if_pos (by omega)]
    rw [P.bind_ok (E.p_ok hm F _), P.bind_ok (E.p_ok (hdiv _) F _)]
    rw [P.bind_ok (seekToEnd_ok (q := q + b.ser.length) _ (by omega) (by simp [Box.size]; omega)
      (by omega) (by omega))]
    rfl
  · have hbl : b.body.length = 4 + 16 + 4 + 8 + rest.length := by
      rw [hbody]; simp [hfl, htl, be32_length, be64_length]; omega
    rw [hbody] at hb
    simp only [List.cons_append] at hb
    have a1 : At F (q + b.headLen) (1 :: flags) := hb.left.left.left.left
    have a2 := (hb.left.left.right (a := 1 :: (flags ++ times)) (n := 20) (by simp [hfl, htl]))
    have a3 := (hb.left.right (a := 1 :: (flags ++ times ++ be32 ts)) (n := 24)
      (by simp [hfl, htl, be32_length]))
    rw [P.bind_ok (parseFullHead_at a1 hfl e)]
    simp only [if_true, show ¬ ((1 : UInt8) = 0) by decide, if_false]
    rw [P.bind_ok (seekCur_lit (i := 16) 16 rfl (by omega))]
    rw [P.bind_ok (readU32_at (n := ts) (by simpa [Nat.add_assoc] using a2) hts e)]
    rw [P.bind_ok (readU64_at (n := dur) (by simpa [Nat.add_assoc] using a3) (by omega) e)]
    have hm : mulU dur 1000000000 e = .ok (dur * 1000000000) := by rw [mulU, if_pos (by omega)]
    rw [P.bind_ok (E.p_ok hm F _), P.bind_ok (E.p_ok (hdiv _) F _)]
    rw [P.bind_ok (seekToEnd_ok (q := q + b.ser.length) _ (by omega) (by simp [Box.size]; omega)
      (by omega) (by omega))]
    rfl

/-! ### Descriptors -/

theorem DescLen_lt : ∀ k bs n, DescLen k bs n → n < 128 ^ bs.length ∧ 1 ≤ bs.length ∧ bs.length ≤ k
  | _, [], _, h => by simp [DescLen] at h
  | 0, _ :: _, _, h => by simp [DescLen] at h
  | k+1, b :: bs, n, h => by
    rw [DescLen] at h
    split at h
    · rename_i hbs; subst hbs; simp; omega
    · obtain ⟨_, m, hm, rfl⟩ := h
      have ih := DescLen_lt k bs m hm
      have hb := b.toNat_lt
      rw [List.length_cons, Nat.pow_succ]
      refine ⟨?_, by omega, by omega⟩
      have : (b.toNat - 128) * 128 ^ bs.length ≤ 127 * 128 ^ bs.length := Nat.mul_le_mul_right _ (by omega)
      omega

theorem descHeadLoop_at {F} (e : Env) : ∀ k bs n p hl acc, DescLen k bs n → At F p bs →
    descHeadLoop k hl acc e F p = .ok ((hl + bs.length, acc * 128 ^ bs.length + n), p + bs.length)
  | _, [], _, _, _, _, h, _ => by simp [DescLen] at h
  | 0, _ :: _, _, _, _, _, h, _ => by simp [DescLen] at h
  | k+1, b :: bs, n, p, hl, acc, h, hat => by
    obtain ⟨a1, a2⟩ := hat.cons
    rw [descHeadLoop, P.bind_ok (readU8_at a1 e)]
    rw [DescLen] at h
    split at h
    · rename_i hbs
      subst hbs
      rw [if_pos h.1]
      have : b.toNat % 128 = n := by omega
      simp [P.pure_apply, this]
    · obtain ⟨hb, m, hm, rfl⟩ := h
      have hlt := b.toNat_lt
      rw [if_neg (by omega), descHeadLoop_at e k bs m _ _ _ hm a2]
      have h1 : b.toNat % 128 = b.toNat - 128 := by omega
      rw [h1, List.length_cons]
      have e1 : hl + 1 + bs.length = hl + (bs.length + 1) := by omega
      have e2 : (acc * 128 + (b.toNat - 128)) * 128 ^ bs.length + m
          = acc * 128 ^ (bs.length + 1) + ((b.toNat - 128) * 128 ^ bs.length + m) := by
        rw [Nat.pow_succ, Nat.add_mul, Nat.mul_assoc acc, Nat.mul_comm 128, Nat.add_assoc]
      have e3 : p + 1 + bs.length = p + (bs.length + 1) := by omega
      rw [e1, e2, e3]

theorem Desc.ser_length (d : Desc) : d.ser.length = 1 + d.lenBytes.length + d.body.length := by
  simp [Desc.ser]; omega

theorem parseDescHead_at {F p} {d : Desc} (h : At F p d.ser) (hw : d.WF) (e : Env) :
    parseDescHead e F p = .ok ((d.tag, 1 + d.lenBytes.length, d.body.length), p + (1 + d.lenBytes.length)) := by
  obtain ⟨a1, a2⟩ := At.cons (x := d.tag) (c := d.lenBytes ++ d.body) (by simpa [Desc.ser] using h)
  rw [parseDescHead, P.bind_ok (readU8_at a1 e), P.bind_ok (descHeadLoop_at e 4 _ _ _ _ _ hw a2.left)]
  simp [P.pure_apply, Nat.add_assoc]

theorem Desc.body_at {F p} {d : Desc} (h : At F p d.ser) : At F (p + (1 + d.lenBytes.length)) d.body :=
  At.right (a := d.tag :: d.lenBytes) (by simpa [Desc.ser] using h) (by simp; omega)

theorem descWalk_at {S : Type} {R : Bytes → S → Prop} {apply : Mp4a → S → Mp4a} {wanted : UInt8}
    {handle : Mp4a → Nat → P Mp4a} {e F} (hF : Fit e F) :
    ∀ (descs : List Desc) (specs : List S) (fuel parsed limit p : Nat) (info : Mp4a),
    (∀ d ∈ descs, d.WF) →
    (∀ d ∈ descs, ∀ s info p, d.tag = wanted → R d.body s → At F p d.body →
      handle info d.body.length e F p = .ok (apply info s, p + d.body.length)) →
    All2 (fun d s => R d.body s) (descs.filter (·.tag = wanted)) specs →
    At F p (descs.flatMap Desc.ser) → descs.length < fuel →
    parsed + (descs.flatMap Desc.ser).length = limit → limit < 2^64 →
    descWalk wanted handle limit fuel info parsed e F p
      = .ok (specs.foldl apply info, p + (descs.flatMap Desc.ser).length) := by
  intro descs
  induction descs with
  | nil =>
    intro specs fuel parsed limit p info _ _ hs _ hf hp _
    cases specs with
    | cons s specs => simp [All2] at hs
    | nil =>
      cases fuel with
      | zero => simp at hf
      | succ fuel =>
        rw [descWalk, P.if_apply, if_neg (by simp at hp; omega)]
        rfl
  | cons d descs ih =>
    intro specs fuel parsed limit p info hw hh hs hat hf hp hl
    cases fuel with
    | zero => simp at hf
    | succ fuel =>
      rw [List.flatMap_cons] at hat
      rw [List.flatMap_cons, List.length_append] at hp ⊢
      have hdl := Desc.ser_length d
      have hle := hat.le
      rw [List.length_append] at hle
      have hfl := hF.len
      have hfp := hF.pos
      have hlt := DescLen_lt _ _ _ (hw d (by simp))
      rw [descWalk, P.if_apply, if_pos (by omega)]
      rw [P.bind_ok (parseDescHead_at hat.left (hw d (by simp)) e)]
      have hb := Desc.body_at hat.left
      have hadd1 : addU (1 + d.lenBytes.length) d.body.length e = .ok d.ser.length := by
        rw [addU, if_pos (by omega), hdl]
      have hadd2 : addU parsed d.ser.length e = .ok (parsed + d.ser.length) := by
        rw [addU, if_pos (by omega)]
      have hpos : p + (1 + d.lenBytes.length) + d.body.length = p + d.ser.length := by omega
      have hih := fun specs info => ih specs fuel (parsed + d.ser.length) limit (p + d.ser.length) info
        (fun d hd => hw d (by simp [hd])) (fun d hd => hh d (by simp [hd]))
      by_cases ht : d.tag = wanted
      · simp only [List.filter_cons, ht, decide_true, if_true] at hs
        cases specs with
        | nil => simp [All2] at hs
        | cons s specs =>
          obtain ⟨hs1, hs2⟩ := hs
          simp only [ht, if_true]
          rw [P.bind_ok (hh d (by simp) s info _ ht hs1 hb)]
          rw [P.bind_ok (E.p_ok hadd1 F _), P.bind_ok (E.p_ok hadd2 F _), hpos]
          rw [hih specs _ hs2 (hat.right rfl) (by simpa using hf) (by omega) hl]
          simp [Nat.add_assoc]
      · simp only [List.filter_cons, ht, decide_false] at hs
        have hskip : (do seekCur (asI64 d.body.length); pure info : P Mp4a) e F (p + (1 + d.lenBytes.length))
            = .ok (info, p + d.ser.length) := by
          rw [asI64_small (by omega), P.bind_ok (seekCur_ok (by omega)), hpos]; rfl
        simp only [ht, if_false]
        rw [P.bind_ok hskip]
        rw [P.bind_ok (E.p_ok hadd1 F _), P.bind_ok (E.p_ok hadd2 F _)]
        rw [hih specs _ hs (hat.right rfl) (by simpa using hf) (by omega) hl]
        simp [Nat.add_assoc]

theorem sampleRate_code (n : Nat) : SampleRate.ofCode n = sampleRates[n]? := by
  by_cases h : n < 13
  · have : ∀ n < 13, SampleRate.ofCode n = sampleRates[n]? := by decide
    exact this n h
  · rw [List.getElem?_eq_none (by simp [sampleRates]; omega)]
    unfold SampleRate.ofCode
    split <;> first | omega | rfl

theorem channel_code (n : Nat) : ChannelConfig.ofCode n = channelOf n := by
  by_cases h : n < 8
  · have : ∀ n < 8, ChannelConfig.ofCode n = channelOf n := by decide
    exact this n h
  · rw [channelOf, if_neg (by omega), List.getElem?_eq_none (by simp [channelConfigs]; omega)]
    unfold ChannelConfig.ofCode
    split <;> first | omega | rfl

/-- The effect of a decoder specific descriptor. -/
def applySpec (i : Mp4a) (s : Nat × Nat) : Mp4a :=
  { i with sampleRate := sampleRates[s.1]?, channelConfig := channelOf s.2 }

/-- The effect of a decoder config. -/
def applyConfig (i : Mp4a) (c : Config) : Mp4a :=
  c.specs.foldl applySpec { i with maxBitrate := some c.maxRate, avgBitrate := some c.avgRate }

theorem parseDsDesc_at {e F p} {b : Bytes} {s : Nat × Nat} (info : Mp4a) (hF : Fit e F)
    (h : DsBody b s.1 s.2) (hat : At F p b) :
    parseDsDesc info b.length e F p = .ok (applySpec info s, p + b.length) := by
  obtain ⟨ot, low, rest, h1, h2, h3, h4, hb⟩ := h
  have hle := hat.le
  have hfl := hF.len
  have hfp := hF.pos
  have hbl : b.length = 2 + rest.length := by rw [hb]; simp; omega
  have ha : At F p _ := (hb ▸ hat).left
  have hr : readU16 e F p = .ok ((ot * 8 + s.1 / 2) * 256 + (s.1 % 2 * 128 + s.2 * 8 + low), p + 2) := by
    rw [readU16, P.bind_ok (readExact_at' (n := 2) ha rfl e)]
    simp only [P.pure_apply, beNat, List.foldl_cons, List.foldl_nil]
    rw [u8_ofNat _ (by omega), u8_ofNat _ (by omega)]
    simp
  rw [parseDsDesc, P.bind_ok hr]
  have hs : subU b.length 2 e = .ok rest.length := by rw [subU, if_pos (by omega)]; congr 1; omega
  rw [P.bind_ok (E.p_ok hs F _), asI64_small (by omega), P.bind_ok (seekCur_ok (by omega))]
  rw [P.pure_apply, applySpec, sampleRate_code, channel_code]
  have e1 : ((ot * 8 + s.1 / 2) * 256 + (s.1 % 2 * 128 + s.2 * 8 + low)) / 128 % 16 = s.1 := by omega
  have e2 : ((ot * 8 + s.1 / 2) * 256 + (s.1 % 2 * 128 + s.2 * 8 + low)) / 8 % 16 = s.2 := by omega
  rw [e1, e2, hbl, Nat.add_assoc]

theorem flatMap_desc_length (descs : List Desc) : descs.length ≤ (descs.flatMap Desc.ser).length := by
  induction descs with
  | nil => simp
  | cons d descs ih =>
    rw [List.flatMap_cons, List.length_append, Desc.ser_length, List.length_cons]; omega

theorem parseDcDesc_at {e F p} {b : Bytes} {c : Config} (info : Mp4a) (hF : Fit e F)
    (h : DcBody b c.maxRate c.avgRate c.specs) (hat : At F p b) :
    parseDcDesc info b.length e F p = .ok (applyConfig info c, p + b.length) := by
  obtain ⟨front, descs, h1, h2, h3, hw, hb, hall⟩ := h
  have hle := hat.le
  have hfl := hF.len
  have hfp := hF.pos
  have hff := hF.fuel
  have hbl : b.length = 13 + (descs.flatMap Desc.ser).length := by
    rw [hb]; simp [h1, be32_length]; omega
  rw [hb] at hat
  have a1 := hat.left.left.right h1
  have a2 := hat.left.right (n := 9) (by simp [h1, be32_length])
  have a3 := hat.right (n := 13) (by simp [h1, be32_length])
  have hdl := flatMap_desc_length descs
  rw [parseDcDesc, P.bind_ok (seekCur_lit (i := 5) 5 rfl (by omega)), P.bind_ok (readU32_at a1 h2 e),
    P.bind_ok (readU32_at (by simpa [Nat.add_assoc] using a2) h3 e),
    P.bind_ok (show getFuel e F _ = .ok (e.fuel, _) from rfl)]
  have hp : p + 5 + 4 + 4 = p + 13 := by omega
  rw [hp, descWalk_at (R := fun b s => DsBody b s.1 s.2) (apply := applySpec) hF descs c.specs e.fuel 13
    b.length (p + 13) _ hw (fun d _ s info p _ hs hat => parseDsDesc_at info hF hs hat) hall a3 (by omega)
    (by omega) (by omega)]
  rw [hbl, Nat.add_assoc]; rfl

theorem parseEsDesc_at {e F p} {b : Bytes} {cs : List Config} (info : Mp4a) (hF : Fit e F)
    (h : EsBody b cs) (hat : At F p b) :
    parseEsDesc info b.length e F p = .ok (cs.foldl applyConfig info, p + b.length) := by
  obtain ⟨front, descs, h1, hw, hb, hall⟩ := h
  have hle := hat.le
  have hfl := hF.len
  have hfp := hF.pos
  have hff := hF.fuel
  have hbl : b.length = 3 + (descs.flatMap Desc.ser).length := by rw [hb]; simp [h1]
  rw [hb] at hat
  have a3 := hat.right h1
  have hdl := flatMap_desc_length descs
  rw [parseEsDesc, P.bind_ok (seekCur_lit (i := 3) 3 rfl (by omega)),
    P.bind_ok (show getFuel e F _ = .ok (e.fuel, _) from rfl)]
  rw [descWalk_at (R := fun b (c : Config) => DcBody b c.maxRate c.avgRate c.specs) (apply := applyConfig) hF
    descs cs e.fuel 3 b.length (p + 3) _ hw (fun d _ s info p _ hs hat => parseDcDesc_at info hF hs hat)
    hall a3 (by omega) (by omega) (by omega)]
  rw [hbl, Nat.add_assoc]

/-- What is read from an `mp4a` atom. -/
def mp4aOf (cs : List Config) : Mp4a := cs.foldl applyConfig {}

theorem parseEsds_at {e F q} {b : Box} {cs : List Config} (hF : Fit e F) (hat : At F q b.ser)
    (h : EsdsBody b.body cs) :
    ∃ q', parseEsds {} b.size e F (q + b.headLen) = .ok (mp4aOf cs, q') ∧ q' ≤ q + b.ser.length := by
  obtain ⟨flags, d, rest, hfl, ht, hw, hb, hes⟩ := h
  have hle := hat.le
  have hsl := b.ser_length
  have hF1 := hF.len
  have hbody := Box.body_at hat
  have hdl := Desc.ser_length d
  have hbl : b.body.length = 4 + d.ser.length + rest.length := by rw [hb]; simp [hfl]; omega
  rw [hb] at hbody
  simp only [List.cons_append] at hbody
  have a1 : At F _ (0 :: flags) := hbody.left.left
  have a2 := hbody.left.right (a := 0 :: flags) (n := 4) (by simp [hfl])
  rw [parseEsds, P.bind_ok (parseFullHead_at a1 hfl e)]
  simp only [ne_eq, not_true_eq_false, if_false]
  rw [P.bind_ok (parseDescHead_at a2 hw e)]
  simp only [ht, ne_eq, not_true_eq_false, if_false]
  rw [P.bind_ok (E.p_ok (b.contentLen e) F _)]
  have hs1 : subU b.body.length 4 e = .ok (b.body.length - 4) := by rw [subU, if_pos (by omega)]
  rw [P.bind_ok (E.p_ok hs1 F _)]
  have hs2 : subU (b.body.length - 4) (1 + d.lenBytes.length) e
      = .ok (b.body.length - 4 - (1 + d.lenBytes.length)) := by rw [subU, if_pos (by omega)]
  rw [P.bind_ok (E.p_ok hs2 F _), Nat.min_eq_left (by omega)]
  rw [parseEsDesc_at {} hF hes (Desc.body_at a2)]
  exact ⟨_, rfl, by omega⟩

theorem parseMp4a_at {e F q} {b : Box} {cs : List Config} (hF : Fit e F) (hat : At F q b.ser)
    (h : Mp4aBody b.body cs) :
    parseMp4a b.size e F (q + b.headLen) = .ok (mp4aOf cs, q + b.ser.length) := by
  obtain ⟨front, esds, rest, hfl, hfc, hfit, hb, hes⟩ := h
  have hle := hat.le
  have hsl := b.ser_length
  have hF1 := hF.len
  have hF2 := hF.pos
  have hbody := Box.body_at hat
  have hbl : b.body.length = 28 + esds.ser.length + rest.length := by rw [hb]; simp [hfl]; omega
  rw [hb] at hbody
  have a1 := hbody.left.right hfl
  obtain ⟨q', hq, hq'⟩ := parseEsds_at hF a1 hes
  have hpos := esds.headLen_pos
  have hesl := esds.ser_length
  rw [parseMp4a, P.bind_ok (findBounds_box b e), P.bind_ok (seekCur_lit (i := 28) 28 rfl (by omega)),
    P.bind_ok (parseHead_box a1 hfit hF1 e)]
  have hfc' : esds.hd.fourcc = ELEMENTARY_STREAM_DESCRIPTION := hfc
  simp only [hfc', ne_eq, not_true_eq_false, if_false]
  have hq2 : parseEsds {} esds.hd.size e F (q + b.headLen + 28 + esds.headLen) = .ok (mp4aOf cs, q') := hq
  rw [P.bind_ok hq2]
  rw [P.bind_ok (seekToEnd_ok (q := q + b.ser.length) _ (by omega) (by simp [Box.size]; omega)
    (by omega) (by omega))]
  rfl

theorem boxSel_iff (fc : Fourcc) (b : Box) : (Box.sel fc b).isSome = true ↔ b.fc = fc := by
  unfold Box.sel; split <;> simp_all

theorem boxSel_body {fc : Fourcc} {b : Box} {x : Bytes} (h : Box.sel fc b = some x) : x = b.body := by
  unfold Box.sel at h; split at h <;> simp_all

theorem optRel_map {γ τ} {f : γ → τ} : ∀ {r : Option γ} {r' : Option τ},
    OptRel (fun g t => t = f g) r r' → r' = r.map f
  | none, none, _ => rfl
  | some _, some _, h => by simp [OptRel] at h; simp [h]
  | none, some _, h => by simp [OptRel] at h
  | some _, none, h => by simp [OptRel] at h

theorem parseStsd_at {e F q} {b : Box} {r : Option (List Config)} (hF : Fit e F) (hat : At F q b.ser)
    (h : StsdBody b.body r) :
    parseStsd b.size e F (q + b.headLen) = .ok (r.map mp4aOf, q + b.ser.length) := by
  obtain ⟨flags, count, entries, hfl, hcl, hfit, hb, hl⟩ := h
  have hle := hat.le
  have hsl := b.ser_length
  have hF1 := hF.len
  have hF2 := hF.pos
  have hbody := Box.body_at hat
  have hbl : b.body.length = 8 + (serL id entries).length := by rw [hb]; simp [hfl, hcl]; omega
  rw [hb] at hbody
  simp only [List.cons_append] at hbody
  have a1 : At F _ (0 :: flags) := hbody.left.left
  have a2 := hbody.right (a := 0 :: (flags ++ count)) (n := 8) (by simp [hfl, hcl])
  rw [parseStsd, P.bind_ok (parseFullHead_at a1 hfl e)]
  simp only [ne_eq, not_true_eq_false, if_false]
  rw [P.bind_ok (seekCur_lit (i := 4) 4 rfl (by omega))]
  obtain ⟨r', h1, h2⟩ := last_loop (box := id) (parse := parseMp4a) (V := fun g t => t = mp4aOf g)
    (limit := b.size.contentLen) (parsed := 8) (p := q + b.headLen + 8) hF (by rw [b.contentLen e, hbl])
    hfit (fun k _ => boxSel_iff _ k)
    (by
      intro k hk x g hs hg q' hat'
      have := boxSel_body hs
      subst this
      exact ⟨_, parseMp4a_at hF hat' hg, rfl⟩)
    hl a2 (by omega)
  rw [← optRel_map h2, show q + b.headLen + 4 + 4 = q + b.headLen + 8 by omega]
  refine Eq.trans h1 ?_
  rw [hsl, hbl]; congr 2; omega

end Mp4
