import Verif.Proof.ReadAudio
/-
Reading items, the item list, metadata and user data.
-/
namespace Mp4
open Spec

theorem utf8EncChar_spec (c : Char) : utf8EncChar c = String.utf8EncodeChar c := by
  have h := char_scalar c
  have hlt : c.toNat < 0x110000 := by unfold IsScalar at h; omega
  unfold utf8EncChar String.utf8EncodeChar
  simp only [Char.toNat] at hlt ⊢
  generalize c.val.toNat = n at *
  by_cases h1 : n < 128
  · have g1 : n ≤ 127 := by omega
    simp only [h1, g1, if_true]
  have g1 : ¬ n ≤ 127 := by omega
  by_cases h2 : n < 2048
  · have g2 : n ≤ 2047 := by omega
    simp only [h1, g1, h2, g2, if_true, if_false]
    rw [Nat.add_comm 192, Nat.add_comm 128, Nat.mod_eq_of_lt (b := 32) (by omega)]
  have g2 : ¬ n ≤ 2047 := by omega
  by_cases h3 : n < 65536
  · have g3 : n ≤ 65535 := by omega
    simp only [h1, g1, h2, g2, h3, g3, if_true, if_false]
    rw [Nat.add_comm 224, Nat.add_comm 128, Nat.add_comm 128, Nat.mod_eq_of_lt (b := 16) (by omega)]
  have g3 : ¬ n ≤ 65535 := by omega
  simp only [h1, g1, h2, g2, h3, g3, if_false]
  rw [Nat.add_comm 240, Nat.add_comm 128, Nat.add_comm 128, Nat.add_comm 128,
      Nat.mod_eq_of_lt (b := 8) (by omega)]

theorem utf8Enc_spec (s : Str) : utf8Enc s = utf8 s := by
  unfold utf8Enc utf8
  rw [show utf8EncChar = String.utf8EncodeChar from funext utf8EncChar_spec]

theorem utf16Enc_spec (s : Str) : utf16Enc s = utf16 s := rfl

theorem utf16be_spec (s : Str) : utf16be s = be16 (utf16Enc s) := by
  unfold utf16be
  rw [show Mp4.be16 (utf16Enc s) = (utf16Enc s).flatMap (toBe 2) from rfl, ← utf16Enc_spec]
  congr 1
  funext n
  rw [toBe_two, Spec.be16]
  congr 1
  · apply UInt8.toNat_inj.mp; simp
  · congr 1; apply UInt8.toNat_inj.mp; simp

theorem readUtf8_at {F p s n} (h : At F p (utf8 s)) (hn : (utf8 s).length = n) (hl : n < 2^63) (e : Env) :
    readUtf8 n e F p = .ok (s, p + n) := by
  rw [readUtf8, P.bind_ok (readU8Vec_at h hn hl e), ← utf8Enc_spec, utf8Dec_enc]
  rfl

theorem units16_odd {b : Bytes} (h : b.length ≤ 1) : units16 b = [] := by
  match b, h with
  | [], _ => rfl
  | [_], _ => rfl

theorem readUtf16_at {F p s n odd} (ho : odd.length ≤ 1) (h : At F p (utf16be s ++ odd))
    (hn : (utf16be s ++ odd).length = n) (hl : n < 2^63) (e : Env) :
    readUtf16 n e F p = .ok (s, p + n) := by
  have ha : (allocU8 n) e = .ok () := by rw [allocU8, if_neg (by omega)]
  rw [readUtf16, P.bind_ok (E.p_ok ha F p), P.bind_ok (readExact_at' h hn e), utf16be_spec,
    units16_be16 _ _ (utf16Enc_lt s), units16_odd ho, List.append_nil, utf16Dec_enc]
  rfl

theorem dataParse_at {F p code b v n} (hv : ValueEnc code b v) (h : At F p b) (hn : b.length = n)
    (hl : n < 2^63) (e : Env) : Data.parse code n e F p = .ok (v, p + n) := by
  cases hv with
  | utf8 s => exact P.bind_ok (readUtf8_at h hn hl e)
  | utf16 s odd ho => exact P.bind_ok (readUtf16_at ho h hn hl e)
  | reserved => exact P.bind_ok (readU8Vec_at h hn hl e)
  | jpeg => exact P.bind_ok (readU8Vec_at h hn hl e)
  | png => exact P.bind_ok (readU8Vec_at h hn hl e)
  | beSigned => exact P.bind_ok (readU8Vec_at h hn hl e)
  | bmp => exact P.bind_ok (readU8Vec_at h hn hl e)

/-- The effect of a part on the local variables of the item parser. -/
def partStep (s : ItemSt) : Part → ItemSt
  | .data _ _ _ _ v => { s with data := s.data ++ [v] }
  | .mean _ _ m => { s with mean := some m }
  | .name _ _ m => { s with name := some m }
  | .other _ => s

theorem valueEnc_code {code b v} (h : ValueEnc code b v) : code < 256 := by cases h <;> omega

theorem textPart_at {F q} {b : Box} {flags : Bytes} {t : Str} (hF : F.length < 2^63) (hat : At F q b.ser)
    (hfl : flags.length = 3) (hb : b.body = 0 :: flags ++ utf8 t) {α} (f : Str → α) (e : Env) :
    (do
      let (version, _) ← parseFullHead
      if version ≠ 0 then fail (.unknownVersion version)
      else do
        let n ← b.hd.size.contentLen.p
        let n ← (subU n 4).p
        let m ← readUtf8 n
        pure (f m) : P α) e F (q + b.headLen) = .ok (f t, q + b.ser.length) := by
  have hbody := Box.body_at hat
  have hle := hat.le
  have hsl := b.ser_length
  have hbl : b.body.length = 4 + (utf8 t).length := by rw [hb]; simp [hfl]; omega
  rw [hb] at hbody
  have a1 : At F _ (0 :: flags) := hbody.left
  have a2 := hbody.right (a := 0 :: flags) (n := 4) (by simp [hfl])
  rw [P.bind_ok (parseFullHead_at a1 hfl e)]
  simp only [ne_eq, not_true_eq_false, if_false]
  have hc : b.hd.size.contentLen e = .ok b.body.length := b.contentLen e
  have hs : subU b.body.length 4 e = .ok (utf8 t).length := by
    rw [subU, if_pos (by omega)]; congr 1; omega
  rw [P.bind_ok (E.p_ok hc F _), P.bind_ok (E.p_ok hs F _), P.bind_ok (readUtf8_at a2 rfl (by omega) e)]
  rw [P.pure_apply, hsl, hbl]; congr 2; omega

theorem itemHandle_at {e F q} {p : Part} (s : ItemSt) (hF : Fit e F) (hw : p.WF) (hat : At F q p.box.ser) :
    itemHandle s p.box.hd e F (q + p.box.headLen) = .ok (partStep s p, q + p.box.ser.length) := by
  have hle := hat.le
  have hF1 := hF.len
  have hF2 := hF.pos
  have hsl := p.box.ser_length
  have hbody := Box.body_at hat
  obtain ⟨hfit, hw⟩ := hw
  cases p with
  | data ext code locale payload v =>
    obtain ⟨hl, hv⟩ := hw
    have hcode := valueEnc_code hv
    have hbl : (Part.data ext code locale payload v).box.body.length = 8 + payload.length := by
      simp [Part.box, be32_length, hl]; omega
    have hfull : At F (q + (Part.data ext code locale payload v).box.headLen) (0 :: [0, 0, UInt8.ofNat code]) := by
      have := hbody.left.left
      have h0 : be32 code = 0 :: [0, 0, UInt8.ofNat code] := by
        rw [be32, Nat.div_eq_of_lt (by omega), Nat.div_eq_of_lt (by omega), Nat.div_eq_of_lt (by omega)]; rfl
      rwa [← h0]
    have a2 := hbody.right (n := 8) (by simp [be32_length, hl])
    rw [itemHandle, if_pos (show (Part.data ext code locale payload v).box.hd.fourcc = DATA from rfl), P.bind_ok (parseFullHead_at hfull rfl e)]
    simp only [ne_eq, not_true_eq_false, if_false]
    rw [P.bind_ok (seekCur_lit (i := 4) 4 rfl (by omega))]
    have hc : (Part.data ext code locale payload v).box.hd.size.contentLen e = .ok (8 + payload.length) := by
      rw [← hbl]; exact Box.contentLen _ e
    have hs : subU (8 + payload.length) 8 e = .ok payload.length := by
      rw [subU, if_pos (by omega)]; congr 1; omega
    rw [P.bind_ok (E.p_ok hc F _), P.bind_ok (E.p_ok hs F _)]
    have hty : beNat [0, 0, UInt8.ofNat code] = code := by
      simp [beNat]; omega
    rw [hty, show q + (Part.data ext code locale payload v).box.headLen + 4 + 4
        = q + (Part.data ext code locale payload v).box.headLen + 8 by omega,
      P.bind_ok (dataParse_at hv a2 rfl (by omega) e), P.pure_apply]
    rw [hsl, hbl, show ∀ a : Nat, q + a + 8 + payload.length = q + (a + (8 + payload.length)) by omega]
    rfl
  | mean ext flags t =>
    rw [itemHandle, if_neg (show ¬ (Part.mean ext flags t).box.hd.fourcc = DATA by
      show ¬ MEAN = DATA; decide), if_pos (show (Part.mean ext flags t).box.hd.fourcc = MEAN from rfl)]
    exact textPart_at hF1 hat hw rfl (fun m => { s with mean := some m }) e
  | name ext flags t =>
    rw [itemHandle, if_neg (show ¬ (Part.name ext flags t).box.hd.fourcc = DATA by
      show ¬ NAME = DATA; decide), if_neg (show ¬ (Part.name ext flags t).box.hd.fourcc = MEAN by
      show ¬ NAME = MEAN; decide), if_pos (show (Part.name ext flags t).box.hd.fourcc = NAME from rfl)]
    exact textPart_at hF1 hat hw rfl (fun m => { s with name := some m }) e
  | other b =>
    obtain ⟨h1, h2, h3⟩ := hw
    have g1 : ¬ (Part.other b).box.hd.fourcc = DATA := h1
    have g2 : ¬ (Part.other b).box.hd.fourcc = MEAN := h2
    have g3 : ¬ (Part.other b).box.hd.fourcc = NAME := h3
    rw [itemHandle, if_neg g1, if_neg g2, if_neg g3, P.bind_ok (skipContent_box hat hF)]
    rfl

theorem partFold (parts : List Part) (s : ItemSt) :
    parts.foldl partStep s =
      { data := s.data ++ parts.filterMap Part.value?
        mean := (parts.filterMap Part.mean?).getLast?.or s.mean
        name := (parts.filterMap Part.name?).getLast?.or s.name } := by
  induction parts generalizing s with
  | nil => simp
  | cons p parts ih =>
    rw [List.foldl_cons, ih]
    cases p with
    | data ext code locale payload v =>
      rw [List.filterMap_cons_some (show Part.value? (.data ext code locale payload v) = some v from rfl),
        List.filterMap_cons_none (show Part.mean? (.data ext code locale payload v) = none from rfl),
        List.filterMap_cons_none (show Part.name? (.data ext code locale payload v) = none from rfl)]
      simp [partStep]
    | mean ext flags m =>
      rw [List.filterMap_cons_none (show Part.value? (.mean ext flags m) = none from rfl),
        List.filterMap_cons_some (show Part.mean? (.mean ext flags m) = some m from rfl),
        List.filterMap_cons_none (show Part.name? (.mean ext flags m) = none from rfl), List.getLast?_cons]
      cases (List.filterMap Part.mean? parts).getLast? <;> simp [partStep]
    | name ext flags m =>
      rw [List.filterMap_cons_none (show Part.value? (.name ext flags m) = none from rfl),
        List.filterMap_cons_none (show Part.mean? (.name ext flags m) = none from rfl),
        List.filterMap_cons_some (show Part.name? (.name ext flags m) = some m from rfl), List.getLast?_cons]
      cases (List.filterMap Part.name? parts).getLast? <;> simp [partStep]
    | other b =>
      rw [List.filterMap_cons_none (show Part.value? (.other b) = none from rfl),
        List.filterMap_cons_none (show Part.mean? (.other b) = none from rfl),
        List.filterMap_cons_none (show Part.name? (.other b) = none from rfl)]
      rfl

theorem parseItem_at {e F p} {fc : Fourcc} {parts : List Part} (hF : Fit e F) (hw : ∀ x ∈ parts, x.WF)
    (hne : parts.filterMap Part.value? ≠ []) (hat : At F p (serL Part.box parts)) :
    parseItem fc (serL Part.box parts).length e F p
      = .ok (⟨itemKey fc parts, parts.filterMap Part.value?⟩, p + (serL Part.box parts).length) := by
  have hl := loop_kids (box := Part.box) (handle := itemHandle) (step := fun s _ k => partStep s k)
    (limit := pure (serL Part.box parts).length) (parsed := 0) (ks := parts) (p := p) ({} : ItemSt) hF
    (by rw [Nat.zero_add]; rfl) (fun k hk => (hw k hk).1)
    (fun k hk q s hat => itemHandle_at s hF (hw k hk) hat) hat (by omega)
  rw [foldAt_ignore, partFold] at hl
  rw [parseItem, P.bind_ok hl]
  simp only [List.nil_append, Option.or_none]
  rw [if_neg (by simpa using hne), P.pure_apply]
  rfl

/-! ### Merging -/

theorem mem_firsts (k : DataIdent) : ∀ ks, k ∈ firsts ks ↔ k ∈ ks
  | [] => by simp [firsts]
  | j :: ks => by
    rw [firsts, List.mem_cons, List.mem_filter, mem_firsts k ks, List.mem_cons]
    by_cases h : k = j <;> simp [h]

theorem firsts_snoc (ks : List DataIdent) (k : DataIdent) :
    firsts (ks ++ [k]) = if k ∈ ks then firsts ks else firsts ks ++ [k] := by
  induction ks with
  | nil => simp [firsts]
  | cons j ks ih =>
    rw [List.cons_append, firsts, ih]
    by_cases hj : k = j
    · subst hj
      by_cases hk : k ∈ ks <;> simp [hk, firsts, List.filter_append]
    · by_cases hk : k ∈ ks <;> simp [hk, hj, firsts, List.filter_append]

theorem firsts_nodup : ∀ ks, (firsts ks).Nodup
  | [] => by simp [firsts]
  | k :: ks => by
    rw [firsts, List.nodup_cons]
    exact ⟨by simp, (firsts_nodup ks).filter _⟩

theorem mergeItem_map {f : DataIdent → List Data} (a : AtomData) : ∀ ks : List DataIdent,
    mergeItem (ks.map fun k => ⟨k, f k⟩) a =
      if a.ident ∈ ks then
        (ks.map fun k => (⟨k, f k⟩ : AtomData)).takeWhile (fun x => x.ident ≠ a.ident) ++
        ⟨a.ident, f a.ident ++ a.data⟩ ::
        ((ks.map fun k => (⟨k, f k⟩ : AtomData)).dropWhile (fun x => x.ident ≠ a.ident)).drop 1
      else (ks.map fun k => ⟨k, f k⟩) ++ [a]
  | [] => rfl
  | k :: ks => by
    rw [List.map_cons, mergeItem, mergeItem_map a ks]
    by_cases h : a.ident = k
    · subst h; simp
    · have h' : ¬ k = a.ident := fun h' => h h'.symm
      by_cases hm : a.ident ∈ ks <;> simp [h, h', hm]

theorem mergeItem_update {f : DataIdent → List Data} (a : AtomData) : ∀ ks : List DataIdent, ks.Nodup →
    a.ident ∈ ks →
    mergeItem (ks.map fun k => ⟨k, f k⟩) a = ks.map fun k => ⟨k, f k ++ if k = a.ident then a.data else []⟩
  | [], _, h => by simp at h
  | k :: ks, hn, h => by
    rw [List.nodup_cons] at hn
    rw [List.map_cons, mergeItem]
    by_cases hk : a.ident = k
    · subst hk
      simp only [if_true, List.map_cons]
      congr 1
      apply List.map_congr_left
      intro j hj
      have hne : ¬ j = a.ident := fun h => hn.1 (h ▸ hj)
      rw [if_neg hne, List.append_nil]
    · have h2 : a.ident ∈ ks := by simpa [hk] using h
      simp only [if_neg hk, List.map_cons]
      rw [mergeItem_update a ks hn.2 h2, if_neg (fun h => hk h.symm), List.append_nil]

theorem mergeItem_new (a : AtomData) : ∀ l : List AtomData, (∀ x ∈ l, x.ident ≠ a.ident) →
    mergeItem l a = l ++ [a]
  | [], _ => rfl
  | o :: os, h => by
    rw [mergeItem, if_neg (fun e => h o (by simp) e.symm), mergeItem_new a os (fun x hx => h x (by simp [hx]))]
    rfl

theorem group_snoc (xs : List (DataIdent × List Data)) (k : DataIdent) (ds : List Data) :
    group (xs ++ [(k, ds)]) = mergeItem (group xs) ⟨k, ds⟩ := by
  unfold group
  rw [List.map_append, List.map_cons, List.map_nil, firsts_snoc]
  by_cases hk : k ∈ xs.map Prod.fst
  · rw [if_pos hk, mergeItem_update ⟨k, ds⟩ _ (firsts_nodup _) (by rw [mem_firsts]; exact hk)]
    apply List.map_congr_left
    intro j _
    congr 1
    rw [List.filter_append, List.flatMap_append]
    congr 1
    by_cases hj : j = k
    · subst hj; simp
    · have hj' : ¬ k = j := fun h => hj h.symm
      simp [hj, hj']
  · rw [if_neg hk, mergeItem_new, List.map_append]
    · congr 1
      · apply List.map_congr_left
        intro j hj
        rw [mem_firsts] at hj
        have : ¬ k = j := fun h => hk (h ▸ hj)
        simp [List.filter_append, this]
      · have : xs.filter (fun x => decide (x.1 = k)) = [] := by
          rw [List.filter_eq_nil_iff]
          intro x hx hxk
          exact hk (List.mem_map.mpr ⟨x, hx, by simpa using hxk⟩)
        simp [List.filter_append, this]
    · intro x hx
      obtain ⟨j, hj, rfl⟩ := List.mem_map.mp hx
      rw [mem_firsts] at hj
      intro h
      have h : j = k := h
      exact hk (h ▸ hj)

theorem group_nil : group [] = [] := rfl

/-! ### The item list and its parents -/

theorem parseIlst_at {e F q} {b : Box} {items} (hF : Fit e F) (hat : At F q b.ser) (h : IlstBody b.body items) :
    parseIlst b.size e F (q + b.headLen) = .ok (group items, q + b.ser.length) := by
  obtain ⟨entries, hw, hb, rfl⟩ := h
  have hbody := Box.body_at hat
  have hle := hat.le
  have hF1 := hF.len
  rw [hb] at hbody
  obtain ⟨s', h1, h2⟩ := loop_rel (box := Entry.box)
    (handle := fun s h =>
      if h.fourcc = FREE then do skipContent h; pure s
      else do
        let n ← h.size.contentLen.p
        let a ← parseItem h.fourcc n
        pure (mergeItem s a))
    (fun done s => s = group (done.filterMap Entry.decoded))
    (limit := b.size.contentLen) (parsed := 0) (p := q + b.headLen) (s := []) hF
    (by rw [Nat.zero_add, ← hb]; exact b.contentLen e) (fun k hk => (hw k hk).1)
    (by
      intro k hk done q s hI hat
      have hsl := k.box.ser_length
      obtain ⟨_, hw⟩ := hw k hk
      cases k with
      | free ext body =>
        refine ⟨s, ?_, ?_⟩
        · rw [if_pos (show (Entry.free ext body).box.hd.fourcc = FREE from rfl), P.bind_ok (skipContent_box hat hF)]; rfl
        · rw [List.filterMap_append,
            List.filterMap_cons_none (show Entry.decoded (.free ext body) = none from rfl),
            List.filterMap_nil, List.append_nil, hI]
      | item ext fc parts =>
        obtain ⟨h1, h2, h3⟩ := hw
        have hfc : ¬ (Entry.item ext fc parts).box.hd.fourcc = FREE := h1
        have hc : (Entry.item ext fc parts).box.hd.size.contentLen e = .ok (serL Part.box parts).length :=
          Box.contentLen _ e
        refine ⟨_, ?_, rfl⟩
        rw [if_neg hfc, P.bind_ok (E.p_ok hc F _), P.bind_ok (parseItem_at hF h2 h3 (Box.body_at hat)),
          P.pure_apply]
        rw [hsl, List.filterMap_append, List.filterMap_cons_some
          (show Entry.decoded (.item ext fc parts) = some (itemKey fc parts, parts.filterMap Part.value?) from rfl),
          List.filterMap_nil]
        rw [group_snoc, hI, Nat.add_assoc]; rfl)
    group_nil.symm hbody (by omega)
  subst h2
  rw [← hb] at h1
  rw [parseIlst, b.ser_length, ← Nat.add_assoc]
  exact h1

theorem parseMeta_at {e F q} {b : Box} {m : Meta} {r} (hF : Fit e F) (hat : At F q b.ser) (hb : b.body = m.ser)
    (hw : m.WF) (h : MetaItems m r) :
    parseMeta b.size e F (q + b.headLen) = .ok (r.map group, q + b.ser.length) := by
  obtain ⟨hfl, hfit⟩ := hw
  have hbody := Box.body_at hat
  rw [hb] at hbody
  have hbl : b.body.length = 4 + (serL id m.kids).length := by rw [hb, Meta.ser]; simp [hfl]; omega
  have a1 : At F _ (0 :: m.flags) := hbody.left
  have a2 := hbody.right (a := 0 :: m.flags) (n := 4) (by simp [hfl])
  rw [parseMeta, P.bind_ok (parseFullHead_at a1 hfl e)]
  simp only [ne_eq, not_true_eq_false, if_false]
  obtain ⟨r', h1, h2⟩ := last_loop (box := id) (parse := parseIlst) (V := fun g t => t = group g)
    (limit := b.size.contentLen) (parsed := 4) (p := q + b.headLen + 4) hF (by rw [b.contentLen e, hbl])
    hfit (fun k _ => boxSel_iff _ k)
    (by
      intro k hk x g hs hg q' hat'
      have := boxSel_body hs
      subst this
      exact ⟨_, parseIlst_at hF hat' hg, rfl⟩)
    h a2 (by omega)
  rw [← optRel_map h2]
  refine Eq.trans h1 ?_
  rw [b.ser_length, hbl]; congr 2; omega

theorem kidSel_iff {α} {fc : Fourcc} {ser : α → Bytes} {P : α → Prop} {k : Kid α} (h : Kid.WF fc ser P k) :
    (Kid.sel k).isSome = true ↔ (k.box fc ser).fc = fc := by
  cases k with
  | node => simp [Kid.sel, Kid.box]
  | raw b => have := h.2; simp only at this; simp [Kid.sel, Kid.box, this]

/-- A container whose only content is children of which the last of one kind counts. -/
theorem kids_at {α γ τ} {fc : Fourcc} {ser : α → Bytes} {W : α → Prop} {R : α → γ → Prop} {V : γ → τ → Prop}
    {parse : Size → P τ} {e F q} {b : Box} {ks : List (Kid α)} {r : Option γ} (hF : Fit e F)
    (hat : At F q b.ser) (hb : b.body = serL (Kid.box fc ser) ks) (hw : ∀ k ∈ ks, Kid.WF fc ser W k)
    (hparse : ∀ (c : Box) a g q, c.body = ser a → W a → R a g → At F q c.ser →
      ∃ t, parse c.size e F (q + c.headLen) = .ok (t, q + c.ser.length) ∧ V g t)
    (h : LastOf Kid.sel R ks r) :
    ∃ r', loop b.size.contentLen (lastHandle fc parse) none 0 e F (q + b.headLen)
        = .ok (r', q + b.ser.length) ∧ OptRel V r r' := by
  have hbody := Box.body_at hat
  rw [hb] at hbody
  obtain ⟨r', h1, h2⟩ := last_loop (box := Kid.box fc ser) (parse := parse) (V := V)
    (limit := b.size.contentLen) (parsed := 0) (p := q + b.headLen) hF
    (by rw [b.contentLen e, hb, Nat.zero_add])
    (fun k hk => (hw k hk).1) (fun k hk => kidSel_iff (hw k hk))
    (by
      intro k hk a g hs hg q' hat'
      cases k with
      | raw => simp [Kid.sel] at hs
      | node ext x =>
        simp only [Kid.sel, Option.some.injEq] at hs
        subst hs
        exact hparse _ _ g q' rfl (hw _ hk).2 hg hat')
    h hbody (by omega)
  refine ⟨r', ?_, h2⟩
  rw [h1, b.ser_length, hb]; congr 2; omega

theorem parseUdta_at {e F q} {b : Box} {u : Udta} {r} (hF : Fit e F) (hat : At F q b.ser) (hb : b.body = u.ser)
    (hw : u.WF) (h : LastOf Kid.sel MetaItems u r) :
    parseUdta b.size e F (q + b.headLen) = .ok (r.map (Option.map group), q + b.ser.length) := by
  obtain ⟨r', h1, h2⟩ := kids_at (parse := parseMeta) (V := fun g t => t = Option.map group g) hF hat hb hw
    (fun c a g q hc ha hg hat => ⟨_, parseMeta_at hF hat hc ha hg, rfl⟩) h
  rw [← optRel_map h2]
  exact h1

end Mp4
