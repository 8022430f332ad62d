import Verif.Spec.Bad
import Verif.Proof.ReadSpec
/-
Reading a file with a defect yields the error describing the first defect.
-/
namespace Mp4
open Spec

theorem P.bind_err {α β} {m : P α} {f : α → P β} {e F p k} (h : m e F p = .err k) : (m >>= f) e F p = .err k := by
  rw [P.bind_apply, h]

theorem walk_err {κ σ} {box : κ → Box} {handle : σ → Head → P σ} {I : List κ → σ → Prop} {k : ErrKind}
    {e : Env} {F : Bytes} {limit : E Nat} {lim : Nat} {c : Box} (hF : F.length < 2^63) (hlim : limit e = .ok lim)
    (hcf : c.Fits)
    (hbad : ∀ q s, At F q c.ser → handle s c.hd e F (q + c.headLen) = .err k) :
    ∀ (ks done : List κ) (fuel parsed p : Nat) (s : σ),
    (∀ k ∈ ks, (box k).Fits) →
    (∀ k ∈ ks, ∀ done q s, I done s → At F q (box k).ser →
      ∃ s', handle s (box k).hd e F (q + (box k).headLen) = .ok (s', q + (box k).ser.length) ∧
        I (done ++ [k]) s') →
    I done s → At F p (serL box ks ++ c.ser) → ks.length < fuel → parsed + (serL box ks ++ c.ser).length ≤ lim →
    lim < 2^64 →
    walk limit handle fuel s parsed e F p = .err k := by
  intro ks
  induction ks with
  | nil =>
    intro done fuel parsed p s _ _ hI hat hf hp _
    cases fuel with
    | zero => simp at hf
    | succ fuel =>
      have hpos := c.headLen_pos
      have hsl := c.ser_length
      rw [serL_nil, List.nil_append] at hat hp
      rw [walk, P.bind_ok (E.p_ok hlim F p), P.if_apply, if_pos (by omega),
        P.bind_ok (parseHead_box hat hcf hF e), P.bind_err (hbad p s hat)]
  | cons k ks ih =>
    intro done fuel parsed p s hfit hh hI hat hf hp hl
    cases fuel with
    | zero => simp at hf
    | succ fuel =>
      rw [serL_cons, List.append_assoc, List.length_append] at hp
      rw [serL_cons, List.append_assoc, At_append] at hat
      have hpos := (box k).headLen_pos
      have hsl := (box k).ser_length
      obtain ⟨s1, h1, hI1⟩ := hh k (by simp) done p s hI hat.1
      rw [walk, P.bind_ok (E.p_ok hlim F p), P.if_apply, if_pos (by omega)]
      rw [P.bind_ok (parseHead_box hat.1 (hfit k (by simp)) hF e)]
      rw [P.bind_ok h1]
      have ha : addU parsed (box k).hd.size.len e = .ok (parsed + (box k).ser.length) := by
        have : (box k).hd.size.len = (box k).ser.length := by rw [hsl]; rfl
        rw [this, addU, if_pos (by omega)]
      rw [P.bind_ok (E.p_ok ha F _)]
      exact ih (done ++ [k]) fuel _ _ s1 (fun k hk => hfit k (by simp [hk])) (fun k hk => hh k (by simp [hk])) hI1 hat.2
        (by simpa using hf) (by omega) hl

theorem loop_err {κ σ} {box : κ → Box} {handle : σ → Head → P σ} (I : List κ → σ → Prop) {good : κ → Prop}
    {bad : Box → ErrKind → Prop} {k : ErrKind}
    {e : Env} {F : Bytes} {limit : E Nat} {parsed : Nat} {b : Bytes} {p : Nat} {s : σ}
    (hF : Fit e F) (hlim : limit e = .ok (parsed + b.length)) (h : FirstBad box good bad b k)
    (hbad : ∀ c q s, bad c k → At F q c.ser → handle s c.hd e F (q + c.headLen) = .err k)
    (hh : ∀ k, good k → ∀ done q s, I done s → At F q (box k).ser →
      ∃ s', handle s (box k).hd e F (q + (box k).headLen) = .ok (s', q + (box k).ser.length) ∧
        I (done ++ [k]) s')
    (hI : I [] s) (hat : At F p b) (hp : parsed ≤ p) :
    loop limit handle s parsed e F p = .err k := by
  obtain ⟨ks, c, rest, h1, h2, h3, rfl⟩ := h
  have a1 := hat.le
  have a2 := hF.len
  have a3 := hF.fuel
  have a4 := serL_length_le box ks
  rw [loop, P.bind_ok (show getFuel e F p = .ok (e.fuel, p) from rfl)]
  rw [List.length_append, List.length_append] at a1
  exact walk_err (I := I) hF.len hlim h2 (fun q s => hbad c q s h3) ks [] e.fuel parsed p s (fun k hk => (h1 k hk).1)
    (fun k hk => hh k (h1 k hk).2) hI hat.left (by omega) (by simp only [List.length_append]; omega)
    (by simp only [List.length_append]; omega)

/-- A loop in which the last atom of a kind counts. -/
theorem lastLeaf_err {γ τ} {R : Bytes → γ → Prop} {bad : Bytes → ErrKind → Prop} {fc : Fourcc} {parse : Size → P τ}
    {k : ErrKind} {e : Env} {F : Bytes} {limit : E Nat} {parsed : Nat} {b : Bytes} {p : Nat} {s : Option τ}
    (hF : Fit e F) (hlim : limit e = .ok (parsed + b.length))
    (h : FirstBad id (GoodLeaf fc R) (BadLeaf fc bad) b k)
    (hgood : ∀ (c : Box) g q, c.fc = fc → R c.body g → At F q c.ser →
      ∃ t, parse c.size e F (q + c.headLen) = .ok (t, q + c.ser.length))
    (hbad : ∀ (c : Box) q, c.fc = fc → bad c.body k → At F q c.ser → parse c.size e F (q + c.headLen) = .err k)
    (hat : At F p b) (hp : parsed ≤ p) :
    loop limit (lastHandle fc parse) s parsed e F p = .err k := by
  refine loop_err (fun _ _ => True) hF hlim h ?_ ?_ trivial hat hp
  · rintro c q s ⟨h1, h2⟩ hat
    have hfc : c.hd.fourcc = fc := h1
    unfold lastHandle
    rw [if_pos hfc]
    exact P.bind_err (hbad c q h1 h2 hat)
  · intro c hg done q s _ hat
    unfold lastHandle
    by_cases hc : c.fc = fc
    · obtain ⟨g, hg⟩ := hg hc
      obtain ⟨t, ht⟩ := hgood c g q hc hg hat
      have hfc : (id c).hd.fourcc = fc := hc
      refine ⟨some t, ?_, trivial⟩
      rw [if_pos hfc]; exact P.bind_ok ht
    · have hfc : ¬ (id c).hd.fourcc = fc := hc
      refine ⟨s, ?_, trivial⟩
      rw [if_neg hfc, P.bind_ok (skipContent_box hat hF)]; rfl

/-- A container whose children are `Kid`s. -/
theorem lastKid_err {α γ τ} {ser : α → Bytes} {W : α → Prop} {R : α → γ → Prop} {bad : Bytes → ErrKind → Prop}
    {fc : Fourcc} {parse : Size → P τ} {k : ErrKind} {e : Env} {F : Bytes} {b : Box} {q : Nat} {s : Option τ}
    (hF : Fit e F) (h : FirstBad (Kid.box fc ser) (GoodKid fc ser W R) (BadLeaf fc bad) b.body k)
    (hgood : ∀ (c : Box) a g q, c.body = ser a → W a → R a g → At F q c.ser →
      ∃ t, parse c.size e F (q + c.headLen) = .ok (t, q + c.ser.length))
    (hbad : ∀ (c : Box) q, bad c.body k → At F q c.ser → parse c.size e F (q + c.headLen) = .err k)
    (hat : At F q b.ser) :
    loop b.size.contentLen (lastHandle fc parse) s 0 e F (q + b.headLen) = .err k := by
  refine loop_err (fun _ _ => True) hF (by rw [b.contentLen e, Nat.zero_add]) h ?_ ?_ trivial (Box.body_at hat) (by omega)
  · rintro c q s ⟨h1, h2⟩ hat
    have hfc : c.hd.fourcc = fc := h1
    unfold lastHandle
    rw [if_pos hfc]
    exact P.bind_err (hbad c q h2 hat)
  · intro c hg done q s _ hat
    obtain ⟨hw, hg⟩ := hg
    unfold lastHandle
    cases c with
    | node ext a =>
      obtain ⟨g, hg⟩ := hg a rfl
      obtain ⟨t, ht⟩ := hgood _ a g q rfl hw.2 hg hat
      refine ⟨some t, ?_, trivial⟩
      rw [if_pos (show (Kid.box fc ser (.node ext a)).hd.fourcc = fc from rfl)]; exact P.bind_ok ht
    | raw c =>
      have hfc : ¬ (Kid.box fc ser (.raw c)).hd.fourcc = fc := hw.2
      refine ⟨s, ?_, trivial⟩
      rw [if_neg hfc, P.bind_ok (skipContent_box hat hF)]; rfl

theorem parseFullHead_bad {F p b k} (h : BadVersion b k) (hat : At F p b) (e : Env) :
    ∃ v fl, parseFullHead e F p = .ok ((v, fl), p + 4) ∧ v ≠ 0 ∧ k = .unknownVersion v := by
  obtain ⟨v, fl, rest, hv, hfl, rfl, rfl⟩ := h
  exact ⟨v, fl, parseFullHead_at hat.left hfl e, hv, rfl⟩

theorem utf8Dec_none {b : Bytes} (h : ∀ s, utf8 s ≠ b) : utf8Dec b = none := by
  cases hd : utf8Dec b with
  | none => rfl
  | some s => exact absurd ((utf8Enc_spec s).symm.trans (utf8Dec_inv b s hd)) (h s)

theorem readUtf8_bad {F p b n} (hat : At F p b) (hn : b.length = n) (hl : n < 2^63) (h : ∀ s, utf8 s ≠ b) (e : Env) :
    readUtf8 n e F p = .err .utf8StringDecoding := by
  rw [readUtf8, P.bind_ok (readU8Vec_at hat hn hl e), utf8Dec_none h]; rfl

theorem units16_append_odd' (b odd : Bytes) (h : b.length % 2 = 0) (ho : odd.length ≤ 1) :
    units16 (b ++ odd) = units16 b := by
  have := units16_be16 (units16 b) odd (units16_lt b)
  rw [be16_units16 b h, units16_odd ho, List.append_nil] at this
  exact this

theorem utf16Dec_none {b : Bytes} (h : ∀ s odd, odd.length ≤ 1 → utf16be s ++ odd ≠ b) : utf16Dec (units16 b) = none := by
  cases hd : utf16Dec (units16 b) with
  | none => rfl
  | some s =>
    have hsplit : b = b.take (b.length / 2 * 2) ++ b.drop (b.length / 2 * 2) := (List.take_append_drop _ b).symm
    have hodd : (b.drop (b.length / 2 * 2)).length ≤ 1 := by rw [List.length_drop]; omega
    have heven : (b.take (b.length / 2 * 2)).length % 2 = 0 := by rw [List.length_take]; omega
    have hu := units16_append_odd' _ _ heven hodd
    rw [← hsplit] at hu
    have hs := utf16Dec_inv _ s (units16_lt b) hd
    refine absurd ?_ (h s _ hodd)
    rw [utf16be_spec, hs, hu, be16_units16 _ heven, ← hsplit]

theorem readUtf16_bad {F p b n} (hat : At F p b) (hn : b.length = n) (hl : n < 2^63)
    (h : ∀ s odd, odd.length ≤ 1 → utf16be s ++ odd ≠ b) (e : Env) :
    readUtf16 n e F p = .err .utf16StringDecoding := by
  have ha : (allocU8 n) e = .ok () := by rw [allocU8, if_neg (by omega)]
  rw [readUtf16, P.bind_ok (E.p_ok ha _ _), P.bind_ok (readExact_at' hat hn e), utf16Dec_none h]; rfl

theorem dataParse_unknown {code n e F p} (h : code ∉ [0, 1, 2, 13, 14, 21, 27]) :
    Data.parse code n e F p = .err (.unknownDataType code) := by
  unfold Data.parse
  split <;> first | rfl | (exfalso; revert h; decide)

/-- A `data` atom whose value cannot be decoded. -/
theorem dataPart_err {e F q k} {b : Box} {code : Nat} {locale payload : Bytes} (s : ItemSt) (hF : Fit e F)
    (hfc : b.fc = DATA) (hb : b.body = be32 code ++ locale ++ payload) (hc : code < 2^24) (hl : locale.length = 4)
    (hat : At F q b.ser)
    (hp : ∀ q, At F q payload → Data.parse code payload.length e F q = .err k) :
    itemHandle s b.hd e F (q + b.headLen) = .err k := by
  have hle := hat.le
  have hF1 := hF.len
  have hF2 := hF.pos
  have hsl := b.ser_length
  have hbody := Box.body_at hat
  have hbl : b.body.length = 8 + payload.length := by rw [hb]; simp [be32_length, hl]; omega
  rw [hb] at hbody
  have h0 : be32 code = 0 :: [UInt8.ofNat (code / 2^16), UInt8.ofNat (code / 2^8), UInt8.ofNat code] := by
    rw [be32, Nat.div_eq_of_lt (by omega)]; rfl
  have hfull : At F (q + b.headLen) (0 :: [UInt8.ofNat (code / 2^16), UInt8.ofNat (code / 2^8), UInt8.ofNat code]) := by
    rw [← h0]; exact hbody.left.left
  have a2 := hbody.right (n := 8) (by simp [be32_length, hl])
  have hfc' : b.hd.fourcc = DATA := hfc
  rw [itemHandle, if_pos hfc', P.bind_ok (parseFullHead_at hfull rfl e)]
  simp only [ne_eq, not_true_eq_false, if_false]
  rw [P.bind_ok (seekCur_lit (i := 4) 4 rfl (by omega))]
  have hcl : b.hd.size.contentLen e = .ok (8 + payload.length) := by rw [← hbl]; exact b.contentLen e
  have hs : subU (8 + payload.length) 8 e = .ok payload.length := by rw [subU, if_pos (by omega)]; congr 1; omega
  rw [P.bind_ok (E.p_ok hcl F _), P.bind_ok (E.p_ok hs F _)]
  have hty : beNat [UInt8.ofNat (code / 2^16), UInt8.ofNat (code / 2^8), UInt8.ofNat code] = code := by
    simp [beNat]; omega
  rw [hty, show q + b.headLen + 4 + 4 = q + b.headLen + 8 by omega]
  exact P.bind_err (hp _ a2)

theorem itemHandle_err {e F q k} {b : Box} (s : ItemSt) (hF : Fit e F) (h : PartBad b k) (hat : At F q b.ser) :
    itemHandle s b.hd e F (q + b.headLen) = .err k := by
  have hle := hat.le
  have hF1 := hF.len
  have hsl := b.ser_length
  have hbody := Box.body_at hat
  have text : ∀ {α} (f : Str → α) flags payload, flags.length = 3 → b.body = 0 :: flags ++ payload → (∀ s, utf8 s ≠ payload) →
      (do
        let (version, _) ← parseFullHead
        if version ≠ 0 then fail (.unknownVersion version)
        else do
          let n ← b.hd.size.contentLen.p
          let n ← (subU n 4).p
          let m ← readUtf8 n
          pure (f m) : P α) e F (q + b.headLen) = .err .utf8StringDecoding := by
    intro α f flags payload hfl hb hbad
    have hbl : b.body.length = 4 + payload.length := by rw [hb]; simp [hfl]; omega
    rw [hb] at hbody
    have a1 : At F _ (0 :: flags) := hbody.left
    have a2 := hbody.right (a := 0 :: flags) (n := 4) (by simp [hfl])
    rw [P.bind_ok (parseFullHead_at a1 hfl e)]
    simp only [ne_eq, not_true_eq_false, if_false]
    have hc : b.hd.size.contentLen e = .ok b.body.length := b.contentLen e
    have hs : subU b.body.length 4 e = .ok payload.length := by rw [subU, if_pos (by omega)]; congr 1; omega
    rw [P.bind_ok (E.p_ok hc F _), P.bind_ok (E.p_ok hs F _), P.bind_err (readUtf8_bad a2 rfl (by omega) hbad e)]
  cases h with
  | version _ _ hfc hv =>
    obtain ⟨v, fl, h1, h2, rfl⟩ := parseFullHead_bad hv hbody e
    rcases hfc with hfc | hfc | hfc
    · have g : b.hd.fourcc = DATA := hfc
      rw [itemHandle, if_pos g, P.bind_ok h1]
      simp only [ne_eq, h2, not_false_eq_true, if_true]; rfl
    · have g0 : ¬ b.hd.fourcc = DATA := by
        show ¬ b.fc = DATA; rw [hfc]; decide
      have g : b.hd.fourcc = MEAN := hfc
      rw [itemHandle, if_neg g0, if_pos g, P.bind_ok h1]
      simp only [ne_eq, h2, not_false_eq_true, if_true]; rfl
    · have g0 : ¬ b.hd.fourcc = DATA := by
        show ¬ b.fc = DATA; rw [hfc]; decide
      have g1 : ¬ b.hd.fourcc = MEAN := by
        show ¬ b.fc = MEAN; rw [hfc]; decide
      have g : b.hd.fourcc = NAME := hfc
      rw [itemHandle, if_neg g0, if_neg g1, if_pos g, P.bind_ok h1]
      simp only [ne_eq, h2, not_false_eq_true, if_true]; rfl
  | type ext code locale payload h1 h2 h3 =>
    exact dataPart_err s hF rfl rfl h1 h3 hat (fun q _ => dataParse_unknown h2)
  | utf8 ext locale payload h1 h2 =>
    refine dataPart_err s hF rfl rfl (by decide) h1 hat (fun q hq => ?_)
    have := hq.le
    exact P.bind_err (readUtf8_bad hq rfl (by omega) h2 e)
  | utf16 ext locale payload h1 h2 =>
    refine dataPart_err s hF rfl rfl (by decide) h1 hat (fun q hq => ?_)
    have := hq.le
    exact P.bind_err (readUtf16_bad hq rfl (by omega) h2 e)
  | mean ext flags payload h1 h2 =>
    rw [itemHandle, if_neg (by show ¬ MEAN = DATA; decide),
      if_pos (show (⟨ext, cc 'm' 'e' 'a' 'n', 0 :: flags ++ payload⟩ : Box).hd.fourcc = MEAN from rfl)]
    exact text (fun m => { s with mean := some m }) flags payload h1 rfl h2
  | name ext flags payload h1 h2 =>
    rw [itemHandle, if_neg (by show ¬ NAME = DATA; decide), if_neg (by show ¬ NAME = MEAN; decide),
      if_pos (show (⟨ext, cc 'n' 'a' 'm' 'e', 0 :: flags ++ payload⟩ : Box).hd.fourcc = NAME from rfl)]
    exact text (fun m => { s with name := some m }) flags payload h1 rfl h2

theorem parseItem_err {e F q k} {c : Box} (hF : Fit e F) (h : ItemBad c k) (hat : At F q c.ser) :
    parseItem c.fc c.body.length e F (q + c.headLen) = .err k := by
  obtain ⟨_, h | ⟨parts, h1, h2, h3, rfl⟩⟩ := h
  · rw [parseItem]
    refine P.bind_err (loop_err (fun _ _ => True) hF (by rw [Nat.zero_add]; rfl) h
      (fun c q s hc hat => itemHandle_err s hF hc hat)
      (fun p hp _ q s _ hat => ⟨_, itemHandle_at s hF hp hat, trivial⟩) trivial (Box.body_at hat) (by omega))
  · have hbody := Box.body_at hat
    rw [h3] at hbody
    have hl := loop_kids (box := Part.box) (handle := itemHandle) (step := fun s _ k => partStep s k)
      (limit := pure (serL Part.box parts).length) (parsed := 0) (ks := parts) (p := q + c.headLen) ({} : ItemSt) hF
      (by rw [Nat.zero_add]; rfl) (fun k hk => (h1 k hk).1)
      (fun k hk q s hat => itemHandle_at s hF (h1 k hk) hat) hbody (by omega)
    rw [foldAt_ignore, partFold] at hl
    rw [h3, parseItem, P.bind_ok hl]
    simp only [List.nil_append, h2]
    rfl

theorem parseIlst_err {e F q k} {b : Box} (hF : Fit e F) (h : IlstBad b.body k) (hat : At F q b.ser) :
    parseIlst b.size e F (q + b.headLen) = .err k := by
  have hF1 := hF.len
  refine loop_err (fun (_ : List Entry) _ => True) hF (by rw [Nat.zero_add]; exact b.contentLen e) h ?_ ?_ trivial
    (Box.body_at hat) (by omega)
  · intro c q s hc hat
    have hfc : ¬ c.hd.fourcc = FREE := hc.1
    have hcl : c.hd.size.contentLen e = .ok c.body.length := c.contentLen e
    have := parseItem_err hF hc hat
    rw [if_neg hfc, P.bind_ok (E.p_ok hcl F _)]
    exact P.bind_err this
  · intro k hw done q s _ hat
    have hsl := k.box.ser_length
    obtain ⟨_, hw⟩ := hw
    cases k with
    | free ext body =>
      refine ⟨s, ?_, trivial⟩
      rw [if_pos (show (Entry.free ext body).box.hd.fourcc = FREE from rfl), P.bind_ok (skipContent_box hat hF)]; rfl
    | item ext fc parts =>
      obtain ⟨h1, h2, h3⟩ := hw
      have hfc : ¬ (Entry.item ext fc parts).box.hd.fourcc = FREE := h1
      have hc : (Entry.item ext fc parts).box.hd.size.contentLen e = .ok (serL Part.box parts).length :=
        Box.contentLen _ e
      have h := P.bind_ok (f := fun a => (pure (mergeItem s a) : P _)) (parseItem_at (fc := fc) hF h2 h3 (Box.body_at hat))
      refine ⟨mergeItem s ⟨itemKey fc parts, parts.filterMap Part.value?⟩, ?_, trivial⟩
      rw [if_neg hfc, P.bind_ok (E.p_ok hc F _)]
      refine h.trans ?_
      rw [P.pure_apply, hsl, Nat.add_assoc]; rfl

theorem parseMeta_err {e F q k} {b : Box} (hF : Fit e F) (h : MetaBad b.body k) (hat : At F q b.ser) :
    parseMeta b.size e F (q + b.headLen) = .err k := by
  have hbody := Box.body_at hat
  rcases h with h | ⟨flags, b', hfl, hb, h⟩
  · obtain ⟨v, fl, h1, h2, rfl⟩ := parseFullHead_bad h hbody e
    rw [parseMeta, P.bind_ok h1]
    simp only [ne_eq, h2, not_false_eq_true, if_true]; rfl
  · have hbl : b.body.length = 4 + b'.length := by rw [hb]; simp [hfl]; omega
    rw [hb] at hbody
    have a1 : At F _ (0 :: flags) := hbody.left
    have a2 := hbody.right (a := 0 :: flags) (n := 4) (by simp [hfl])
    rw [parseMeta, P.bind_ok (parseFullHead_at a1 hfl e)]
    simp only [ne_eq, not_true_eq_false, if_false]
    exact lastLeaf_err (parse := parseIlst) hF (by rw [b.contentLen e, hbl]) h
      (fun c g q _ hg hat => ⟨_, parseIlst_at hF hat hg⟩) (fun c q _ hb hat => parseIlst_err hF hb hat) a2 (by omega)

theorem parseUdta_err {e F q k} {b : Box} (hF : Fit e F) (h : UdtaBad b.body k) (hat : At F q b.ser) :
    parseUdta b.size e F (q + b.headLen) = .err k :=
  lastKid_err (parse := parseMeta) hF h (fun c a g q hc ha hg hat => ⟨_, parseMeta_at hF hat hc ha hg⟩)
    (fun c q hb hat => parseMeta_err hF hb hat) hat

theorem parseMvhd_err {e F q k} {b : Box} (h : MvhdBad b.body k) (hat : At F q b.ser) :
    parseMvhd b.size e F (q + b.headLen) = .err k := by
  obtain ⟨v, fl, rest, h0, h1, hfl, hb, rfl⟩ := h
  have hbody := Box.body_at hat
  rw [hb] at hbody
  rw [parseMvhd, P.bind_ok (findBounds_box b e), P.bind_ok (parseFullHead_at hbody.left hfl e)]
  simp only [h0, h1, if_false]; rfl

theorem parseEsds_err {e F q k} {b : Box} {i : Mp4a} (h : EsdsBad b.body k) (hat : At F q b.ser) :
    parseEsds i b.size e F (q + b.headLen) = .err k := by
  have hbody := Box.body_at hat
  rcases h with h | ⟨flags, d, rest, hfl, ht, hw, hb, rfl⟩
  · obtain ⟨v, fl, h1, h2, rfl⟩ := parseFullHead_bad h hbody e
    rw [parseEsds, P.bind_ok h1]
    simp only [ne_eq, h2, not_false_eq_true, if_true]; rfl
  · rw [hb] at hbody
    simp only [List.cons_append] at hbody
    have a1 : At F _ (0 :: flags) := hbody.left.left
    have a2 := hbody.left.right (a := 0 :: flags) (n := 4) (by simp [hfl])
    rw [parseEsds, P.bind_ok (parseFullHead_at a1 hfl e)]
    simp only [ne_eq, not_true_eq_false, if_false]
    rw [P.bind_ok (parseDescHead_at a2 hw e)]
    simp only [ht, ne_eq, not_false_eq_true, if_true]; rfl

theorem parseMp4a_err {e F q k} {b : Box} (hF : Fit e F) (h : Mp4aBad b.body k) (hat : At F q b.ser) :
    parseMp4a b.size e F (q + b.headLen) = .err k := by
  obtain ⟨front, c, rest, hfl, hfit, hb, h⟩ := h
  have hle := hat.le
  have hsl := b.ser_length
  have hF2 := hF.pos
  have hbody := Box.body_at hat
  have hbl : b.body.length = 28 + c.ser.length + rest.length := by rw [hb]; simp [hfl]; omega
  rw [hb] at hbody
  have a1 := hbody.left.right hfl
  rw [parseMp4a, P.bind_ok (findBounds_box b e), P.bind_ok (seekCur_lit (i := 28) 28 rfl (by omega)),
    P.bind_ok (parseHead_box a1 hfit hF.len e)]
  rcases h with ⟨hc, h⟩ | ⟨hc, rfl⟩
  · have hfc : c.hd.fourcc = ELEMENTARY_STREAM_DESCRIPTION := hc
    simp only [hfc, ne_eq, not_true_eq_false, if_false]
    have : parseEsds {} c.hd.size e F (q + b.headLen + 28 + c.headLen) = .err k := parseEsds_err h a1
    exact P.bind_err this
  · have hfc : ¬ c.hd.fourcc = ELEMENTARY_STREAM_DESCRIPTION := hc
    simp only [hfc, ne_eq, not_false_eq_true, if_true]; rfl

theorem parseStsd_err {e F q k} {b : Box} (hF : Fit e F) (h : StsdBad b.body k) (hat : At F q b.ser) :
    parseStsd b.size e F (q + b.headLen) = .err k := by
  have hbody := Box.body_at hat
  have hle := hat.le
  have hsl := b.ser_length
  have hF2 := hF.pos
  rcases h with h | ⟨flags, count, b', hfl, hcl, hb, h⟩
  · obtain ⟨v, fl, h1, h2, rfl⟩ := parseFullHead_bad h hbody e
    rw [parseStsd, P.bind_ok h1]
    simp only [ne_eq, h2, not_false_eq_true, if_true]; rfl
  · have hbl : b.body.length = 8 + b'.length := by rw [hb]; simp [hfl, hcl]; omega
    rw [hb] at hbody
    simp only [List.cons_append] at hbody
    have a1 : At F _ (0 :: flags) := hbody.left.left
    have a2 := hbody.right (a := 0 :: (flags ++ count)) (n := 8) (by simp [hfl, hcl])
    rw [parseStsd, P.bind_ok (parseFullHead_at a1 hfl e)]
    simp only [ne_eq, not_true_eq_false, if_false]
    rw [P.bind_ok (seekCur_lit (i := 4) 4 rfl (by omega)), show q + b.headLen + 4 + 4 = q + b.headLen + 8 by omega]
    exact lastLeaf_err (parse := parseMp4a) hF (by rw [b.contentLen e, hbl]) h
      (fun c g q _ hg hat => ⟨_, parseMp4a_at hF hat hg⟩) (fun c q _ hb hat => parseMp4a_err hF hb hat) a2 (by omega)

theorem parseStbl_err {e F q k} {b : Box} (hF : Fit e F) (h : StblBad b.body k) (hat : At F q b.ser) :
    parseStbl b.size e F (q + b.headLen) = .err k :=
  lastLeaf_err (parse := parseStsd) hF (by rw [b.contentLen e, Nat.zero_add]) h
    (fun c g q _ hg hat => ⟨_, parseStsd_at hF hat hg⟩) (fun c q _ hb hat => parseStsd_err hF hb hat)
    (Box.body_at hat) (by omega)

theorem parseMinf_err {e F q k} {b : Box} (hF : Fit e F) (h : MinfBad b.body k) (hat : At F q b.ser) :
    parseMinf b.size e F (q + b.headLen) = .err k :=
  lastKid_err (parse := parseStbl) hF h
    (fun c a g q hc ha hg hat => by obtain ⟨t, ht, -⟩ := parseStbl_at hF hat hc ha hg; exact ⟨t, ht⟩)
    (fun c q hb hat => parseStbl_err hF hb hat) hat

theorem parseMdia_err {e F q k} {b : Box} (hF : Fit e F) (h : MdiaBad b.body k) (hat : At F q b.ser) :
    parseMdia b.size e F (q + b.headLen) = .err k :=
  lastKid_err (parse := parseMinf) hF h
    (fun c a g q hc ha hg hat => by obtain ⟨t, ht, -⟩ := parseMinf_at hF hat hc ha hg; exact ⟨t, ht⟩)
    (fun c q hb hat => parseMinf_err hF hb hat) hat

theorem parseTrak_err {e F q k} {b : Box} (hF : Fit e F) (h : TrakBad b.body k) (hat : At F q b.ser) :
    parseTrak b.size e F (q + b.headLen) = .err k :=
  lastKid_err (parse := parseMdia) hF h
    (fun c a g q hc ha hg hat => by obtain ⟨t, ht, -⟩ := parseMdia_at hF hat hc ha hg; exact ⟨t, ht⟩)
    (fun c q hb hat => parseMdia_err hF hb hat) hat

theorem parseMoov_err {e F q k} {b : Box} (hF : Fit e F) (h : MoovBad b.body k) (hat : At F q b.ser) :
    parseMoov b.size e F (q + b.headLen) = .err k := by
  refine loop_err MoovInv hF (by rw [b.contentLen e, Nat.zero_add]) h ?_ ?_ ⟨rfl, trivial, rfl⟩ (Box.body_at hat) (by omega)
  · rintro c q s (⟨h1, h2⟩ | ⟨h1, h2⟩ | ⟨h1, h2⟩) hat
    · have g : c.hd.fourcc = MOVIE_HEADER := h1
      rw [moovHandle, if_pos g]
      exact P.bind_err (parseMvhd_err h2 hat)
    · have g0 : ¬ c.hd.fourcc = MOVIE_HEADER := by show ¬ c.fc = _; rw [h1]; decide
      have g : c.hd.fourcc = TRACK := h1
      rw [moovHandle, if_neg g0, if_pos g]
      exact P.bind_err (parseTrak_err hF h2 hat)
    · have g0 : ¬ c.hd.fourcc = MOVIE_HEADER := by show ¬ c.fc = _; rw [h1]; decide
      have g1 : ¬ c.hd.fourcc = TRACK := by show ¬ c.fc = _; rw [h1]; decide
      have g : c.hd.fourcc = USER_DATA := h1
      rw [moovHandle, if_neg g0, if_neg g1, if_pos g]
      exact P.bind_err (parseUdta_err hF h2 hat)
  · intro k hk done q s hI hat
    exact moovHandle_at hF hk.1 hat hI hk.2.1 hk.2.2.1 hk.2.2.2

/-- Reading up to a defective `moov`. -/
theorem readTag_err {e F p k} {ext : Bool} {ftyp : Str} {pre : List Box} {moov : Box} (hF : Fit e F)
    (h1 : (⟨ext, cc 'f' 't' 'y' 'p', utf8 ftyp⟩ : Box).Fits) (h2 : moov.Fits) (hm : moov.fc = cc 'm' 'o' 'o' 'v')
    (h4 : ∀ b ∈ pre, b.Fits ∧ b.fc ≠ cc 'm' 'o' 'o' 'v') (hb : MoovBad moov.body k)
    (hat : At F p ((⟨ext, cc 'f' 't' 'y' 'p', utf8 ftyp⟩ : Box).ser ++ (serL id pre ++ moov.ser))) :
    readTag e F p = .err k := by
  have hle := hat.le
  have hlen := serL_length_le id pre
  have hfuel := hF.fuel
  simp only [List.length_append] at hle
  have hat2 := hat.right rfl
  have hat3 := hat2.right rfl
  have hft := parseFtyp_at hF h1 hat.left
  generalize hbx : (⟨ext, cc 'f' 't' 'y' 'p', utf8 ftyp⟩ : Box) = fb at *
  have htop := topWalk_at hF (moov := moov) hm h2 pre e.fuel 0 (p + fb.ser.length)
    (F.length - (p + fb.ser.length)) h4 hat2 (by omega) (by omega) (by omega) (parseMoov_err hF hb hat3)
  rw [readTag, readTagP, P.bind_ok hft,
    P.bind_ok (remaining_at hF (show p + fb.ser.length ≤ F.length by omega)),
    P.bind_ok (show getFuel e F _ = .ok (e.fuel, _) from rfl), P.bind_err htop]
  rfl

/-- No `moov` at the top level. -/
theorem topWalk_none {e F} (hF : Fit e F) :
    ∀ (pre : List Box) (fuel parsed p len : Nat),
    (∀ b ∈ pre, b.Fits ∧ b.fc ≠ cc 'm' 'o' 'o' 'v') → At F p (serL id pre) →
    parsed + (serL id pre).length = len → parsed ≤ p → pre.length < fuel →
    topWalk len fuel parsed e F p = .err (.atomNotFound MOVIE) := by
  intro pre
  induction pre with
  | nil =>
    intro fuel parsed p len _ _ hl hp hf
    cases fuel with
    | zero => simp at hf
    | succ fuel =>
      rw [serL_nil] at hl
      rw [topWalk, P.if_apply, if_pos (by simp at hl; omega)]; rfl
  | cons b pre ih =>
    intro fuel parsed p len hw hat hl hp hf
    cases fuel with
    | zero => simp at hf
    | succ fuel =>
      have hle := hat.le
      have h1 := b.ser_length
      have h2 := b.headLen_pos
      have h3 := hF.len
      have hb := hw b (by simp)
      rw [serL_cons] at hat hle
      rw [serL_cons] at hl
      rw [List.length_append] at hle hl
      simp only [id] at hat hle hl
      have hfc : ¬ b.hd.fourcc = MOVIE := hb.2
      have ha : addU parsed b.hd.size.len e = .ok (parsed + b.ser.length) := by
        have : b.hd.size.len = b.ser.length := by rw [h1]; rfl
        rw [this, addU, if_pos (by omega)]
      rw [topWalk, P.if_apply, if_neg (by omega), P.bind_ok (parseHead_box hat.left hb.1 hF.len e), if_neg hfc,
        P.bind_ok (skipContent_box hat.left hF), P.bind_ok (E.p_ok ha F _)]
      exact ih fuel _ _ _ (fun x hx => hw x (by simp [hx])) (hat.right rfl) (by omega) (by omega) (by simpa using hf)

end Mp4
