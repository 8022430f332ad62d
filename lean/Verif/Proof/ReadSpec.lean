import Verif.Proof.ReadItems
/-
Reading a whole file.
-/
namespace Mp4
open Spec

/-- The `mp4a` inside a parsed sample table, media information, media, track. -/
def stblMp4a (t : Option (Option Mp4a)) : Option Mp4a := t.bind id
def minfMp4a (t : Option (Option (Option Mp4a))) : Option Mp4a := t.bind stblMp4a
def mdiaMp4a (t : Option (Option (Option (Option Mp4a)))) : Option Mp4a := t.bind minfMp4a

theorem trakMp4a_eq (t : Trak) : trakMp4a t = t.bind mdiaMp4a := by
  unfold trakMp4a mdiaMp4a minfMp4a stblMp4a
  match t with
  | none => rfl
  | some none => rfl
  | some (some none) => rfl
  | some (some (some none)) => rfl
  | some (some (some (some none))) => rfl
  | some (some (some (some (some _)))) => rfl

theorem optRel_join {γ τ α} {f : τ → Option α} {m : γ → α} : ∀ {r : Option (Option γ)} {r' : Option τ},
    OptRel (fun g t => f t = g.map m) r r' → r'.bind f = r.join.map m
  | none, none, _ => rfl
  | some g, some t, h => by simp only [OptRel] at h; simpa using h
  | none, some _, h => by simp [OptRel] at h
  | some _, none, h => by simp [OptRel] at h

theorem parseStbl_at {e F q} {b : Box} {s : Stbl} {r} (hF : Fit e F) (hat : At F q b.ser) (hb : b.body = s.ser)
    (hw : s.WF) (h : StblAudio s r) :
    ∃ t, parseStbl b.size e F (q + b.headLen) = .ok (t, q + b.ser.length) ∧ stblMp4a t = r.map mp4aOf := by
  obtain ⟨r0, h, rfl⟩ := h
  have hbody := Box.body_at hat
  rw [hb] at hbody
  obtain ⟨r', h1, h2⟩ := last_loop (box := id) (parse := parseStsd) (V := fun g t => id t = g.map mp4aOf)
    (limit := b.size.contentLen) (parsed := 0) (p := q + b.headLen) hF
    (by rw [b.contentLen e, hb, Nat.zero_add]; rfl)
    hw (fun k _ => boxSel_iff _ k)
    (by
      intro k hk x g hs hg q' hat'
      have := boxSel_body hs
      subst this
      exact ⟨_, parseStsd_at hF hat' hg, rfl⟩)
    h hbody (by omega)
  refine ⟨r', ?_, optRel_join h2⟩
  refine Eq.trans h1 ?_
  rw [b.ser_length, hb, ← Nat.add_assoc]; rfl

theorem parseMinf_at {e F q} {b : Box} {s : Minf} {r} (hF : Fit e F) (hat : At F q b.ser) (hb : b.body = s.ser)
    (hw : s.WF) (h : MinfAudio s r) :
    ∃ t, parseMinf b.size e F (q + b.headLen) = .ok (t, q + b.ser.length) ∧ minfMp4a t = r.map mp4aOf := by
  obtain ⟨r0, h, rfl⟩ := h
  obtain ⟨r', h1, h2⟩ := kids_at (parse := parseStbl) (V := fun g t => stblMp4a t = g.map mp4aOf) hF hat hb hw
    (fun c a g q hc ha hg hat => parseStbl_at hF hat hc ha hg) h
  exact ⟨r', h1, optRel_join h2⟩

theorem parseMdia_at {e F q} {b : Box} {s : Mdia} {r} (hF : Fit e F) (hat : At F q b.ser) (hb : b.body = s.ser)
    (hw : s.WF) (h : MdiaAudio s r) :
    ∃ t, parseMdia b.size e F (q + b.headLen) = .ok (t, q + b.ser.length) ∧ mdiaMp4a t = r.map mp4aOf := by
  obtain ⟨r0, h, rfl⟩ := h
  obtain ⟨r', h1, h2⟩ := kids_at (parse := parseMinf) (V := fun g t => minfMp4a t = g.map mp4aOf) hF hat hb hw
    (fun c a g q hc ha hg hat => parseMinf_at hF hat hc ha hg) h
  exact ⟨r', h1, optRel_join h2⟩

theorem parseTrak_at {e F q} {b : Box} {s : Spec.Trak} {r} (hF : Fit e F) (hat : At F q b.ser)
    (hb : b.body = s.ser) (hw : s.WF) (h : TrakAudio s r) :
    ∃ t, parseTrak b.size e F (q + b.headLen) = .ok (t, q + b.ser.length) ∧ trakMp4a t = r.map mp4aOf := by
  obtain ⟨r0, h, rfl⟩ := h
  obtain ⟨r', h1, h2⟩ := kids_at (parse := parseMdia) (V := fun g t => mdiaMp4a t = g.map mp4aOf) hF hat hb hw
    (fun c a g q hc ha hg hat => parseMdia_at hF hat hc ha hg) h
  exact ⟨r', h1, by rw [trakMp4a_eq]; exact optRel_join h2⟩

/-! ### `moov` -/

theorem All2_snoc {α β} {R : α → β → Prop} {a b} : ∀ {as : List α} {bs : List β}, All2 R as bs → R a b →
    All2 R (as ++ [a]) (bs ++ [b])
  | [], [], _, h => ⟨h, trivial⟩
  | _ :: _, _ :: _, ⟨h1, h2⟩, h => ⟨h1, All2_snoc h2 h⟩
  | [], _ :: _, h, _ => h.elim
  | _ :: _, [], h, _ => h.elim

theorem All2_mem {α β} {R : α → β → Prop} {a} : ∀ {as : List α} {bs : List β}, All2 R as bs → a ∈ as →
    ∃ b, R a b
  | x :: as, y :: bs, ⟨h1, h2⟩, hm => by
    rcases List.mem_cons.mp hm with rfl | hm
    · exact ⟨y, h1⟩
    · exact All2_mem h2 hm
  | [], _, _, hm => by simp at hm
  | _ :: _, [], h, _ => h.elim

theorem All2_findSome {α β γ δ} {R : α → Option β → Prop} {f : γ → Option δ} {m : β → δ} :
    ∀ {as : List α} {bs : List (Option β)} {cs : List γ}, All2 R as bs →
    All2 (fun a c => ∀ g, R a g → f c = g.map m) as cs →
    cs.findSome? f = (bs.findSome? id).map m
  | [], [], [], _, _ => rfl
  | a :: as, b :: bs, c :: cs, ⟨h1, h2⟩, ⟨h3, h4⟩ => by
    rw [List.findSome?_cons, List.findSome?_cons, h3 b h1]
    cases b with
    | none => exact All2_findSome h2 h4
    | some b => rfl
  | [], _ :: _, _, h, _ => h.elim
  | _ :: _, [], _, h, _ => h.elim
  | [], [], _ :: _, _, h => h.elim
  | _ :: _, _ :: _, [], _, h => h.elim

/-- The local variables of the `moov` parser after some children. -/
def MoovInv (done : List MoovKid) (s : Mp4.Moov) : Prop :=
  LastInv MoovKid.mvhd? MvhdBody (fun g t => t = g) done s.mvhd ∧
  All2 (fun t x => ∀ g, TrakAudio t g → trakMp4a x = g.map mp4aOf) (done.filterMap MoovKid.trak?) s.trak ∧
  LastInv MoovKid.udta? UdtaItems (fun g t => t.bind id = g.map group) done s.udta

theorem moovHandle_at {e F q} {k : MoovKid} {done s} (hF : Fit e F) (hw : k.WF) (hat : At F q k.box.ser)
    (hI : MoovInv done s)
    (hmv : ∀ b, k.mvhd? = some b → ∃ g, MvhdBody b g)
    (htr : ∀ t, k.trak? = some t → ∃ g, TrakAudio t g)
    (hud : ∀ u, k.udta? = some u → ∃ g, UdtaItems u g) :
    ∃ s', moovHandle s k.box.hd e F (q + k.box.headLen) = .ok (s', q + k.box.ser.length) ∧
      MoovInv (done ++ [k]) s' := by
  obtain ⟨hfit, hw⟩ := hw
  obtain ⟨I1, I2, I3⟩ := hI
  cases k with
  | trak ext t =>
    obtain ⟨a, ha, hv⟩ := parse_all (htr t rfl) (fun g hg => parseTrak_at hF hat rfl hw hg)
    have hm : ¬ (MoovKid.trak ext t).box.hd.fourcc = MOVIE_HEADER := by
      show ¬ TRACK = MOVIE_HEADER; decide
    have ht : (MoovKid.trak ext t).box.hd.fourcc = TRACK := rfl
    refine ⟨{ s with trak := s.trak ++ [a] }, ?_, LastInv.snoc_none rfl I1, ?_, LastInv.snoc_none rfl I3⟩
    · rw [moovHandle, if_neg hm, if_pos ht]; exact P.bind_ok ha
    · rw [List.filterMap_append, List.filterMap_cons_some (show MoovKid.trak? (.trak ext t) = some t from rfl),
        List.filterMap_nil]
      exact All2_snoc I2 hv
  | udta ext u =>
    have hm : ¬ (MoovKid.udta ext u).box.hd.fourcc = MOVIE_HEADER := by
      show ¬ USER_DATA = MOVIE_HEADER; decide
    have ht : ¬ (MoovKid.udta ext u).box.hd.fourcc = TRACK := by
      show ¬ USER_DATA = TRACK; decide
    have hu : (MoovKid.udta ext u).box.hd.fourcc = USER_DATA := rfl
    obtain ⟨a, ha, hv⟩ := parse_all (R := UdtaItems u) 
      (V := fun g (t : Option (Option (List AtomData))) => t.bind id = g.map group) (hud u rfl)
      (fun g hg => by
        obtain ⟨r, hr, rfl⟩ := hg
        refine ⟨_, parseUdta_at hF hat rfl hw hr, ?_⟩
        cases r <;> simp)
    refine ⟨{ s with udta := some a }, ?_, LastInv.snoc_none rfl I1, ?_, LastInv.snoc_some rfl hv⟩
    · rw [moovHandle, if_neg hm, if_neg ht, if_pos hu]; exact P.bind_ok ha
    · rw [List.filterMap_append, List.filterMap_cons_none (show MoovKid.trak? (.udta ext u) = none from rfl),
        List.filterMap_nil, List.append_nil]
      exact I2
  | raw b =>
    have htrak : (done ++ [MoovKid.raw b]).filterMap MoovKid.trak? = done.filterMap MoovKid.trak? := by
      rw [List.filterMap_append, List.filterMap_cons_none (show MoovKid.trak? (.raw b) = none from rfl),
        List.filterMap_nil, List.append_nil]
    by_cases hm : b.fc = cc 'm' 'v' 'h' 'd'
    · have hsel : MoovKid.mvhd? (.raw b) = some b.body := by
        show Box.sel _ b = _; rw [Box.sel, if_pos hm]
      obtain ⟨a, ha, hv⟩ := parse_all (R := MvhdBody b.body) (V := fun g t => t = g) (hmv _ hsel)
        (fun g hg => ⟨g, parseMvhd_at hF hat hg, rfl⟩)
      refine ⟨{ s with mvhd := some a }, ?_, LastInv.snoc_some hsel hv, ?_, LastInv.snoc_none rfl I3⟩
      · have hm' : (MoovKid.raw b).box.hd.fourcc = MOVIE_HEADER := hm
        rw [moovHandle, if_pos hm']; exact P.bind_ok ha
      · rw [htrak]; exact I2
    · have hsel : MoovKid.mvhd? (.raw b) = none := by
        show Box.sel _ b = _; rw [Box.sel, if_neg hm]
      have hm' : ¬ (MoovKid.raw b).box.hd.fourcc = MOVIE_HEADER := hm
      have ht' : ¬ (MoovKid.raw b).box.hd.fourcc = TRACK := hw.1
      have hu' : ¬ (MoovKid.raw b).box.hd.fourcc = USER_DATA := hw.2
      refine ⟨s, ?_, LastInv.snoc_none hsel I1, ?_, LastInv.snoc_none rfl I3⟩
      · rw [moovHandle, if_neg hm', if_neg ht', if_neg hu', P.bind_ok (skipContent_box hat hF)]; rfl
      · rw [htrak]; exact I2

theorem parseMoov_at {e F q} {b : Box} {m : Spec.Moov} {dur audio items} (hF : Fit e F) (hat : At F q b.ser)
    (hb : b.body = m.ser) (hw : m.WF) (h : MoovContent m dur audio items) :
    ∃ t : Mp4.Moov, parseMoov b.size e F (q + b.headLen) = .ok (t, q + b.ser.length) ∧
      t.mvhd = dur ∧ t.trak.findSome? trakMp4a = audio.map mp4aOf ∧
      ((t.udta.bind id).bind id).getD [] = group (items.getD []) := by
  obtain ⟨h1, ⟨as, h2, rfl⟩, ⟨r, h3, rfl⟩⟩ := h
  have hbody := Box.body_at hat
  rw [hb] at hbody
  obtain ⟨t, ht, I1, I2, I3⟩ := loop_rel (box := MoovKid.box) (handle := moovHandle) MoovInv
    (limit := b.size.contentLen) (parsed := 0) (p := q + b.headLen) (s := {}) hF
    (by rw [b.contentLen e, hb, Nat.zero_add]; rfl) (fun k hk => (hw k hk).1)
    (fun k hk done q s hI hat => moovHandle_at hF (hw k hk) hat hI
      (h1.1 k hk) (fun t ht => All2_mem h2 (List.mem_filterMap.mpr ⟨k, hk, ht⟩)) (h3.1 k hk))
    ⟨rfl, trivial, rfl⟩ hbody (by omega)
  refine ⟨t, ?_, ?_, All2_findSome h2 I2, ?_⟩
  · refine Eq.trans ht ?_
    rw [b.ser_length, hb, ← Nat.add_assoc]; rfl
  · have := optRel_map (f := id) (I1.optRel h1)
    simpa using this
  · have := I3.optRel h3
    cases r with
    | none =>
      cases hu : t.udta with
      | none => rfl
      | some x => rw [hu] at this; simp [OptRel] at this
    | some g =>
      cases hu : t.udta with
      | none => rw [hu] at this; simp [OptRel] at this
      | some x =>
        rw [hu] at this
        simp only [OptRel] at this
        simp only [Option.bind_some, id_eq]
        rw [this]
        cases g <;> rfl

/-! ### Audio information -/

theorem applySpec_fold (specs : List (Nat × Nat)) (i : Mp4a) :
    specs.foldl applySpec i =
      { i with
        sampleRate := match specs.getLast? with | some s => sampleRates[s.1]? | none => i.sampleRate
        channelConfig := match specs.getLast? with | some s => channelOf s.2 | none => i.channelConfig } := by
  induction specs generalizing i with
  | nil => rfl
  | cons s specs ih =>
    rw [List.foldl_cons, ih, List.getLast?_cons]
    cases specs.getLast? <;> simp [applySpec]

theorem applyConfig_fold (cs : List Config) (i : Mp4a) :
    cs.foldl applyConfig i =
      { maxBitrate := (cs.getLast?.map (·.maxRate)).or i.maxBitrate
        avgBitrate := (cs.getLast?.map (·.avgRate)).or i.avgBitrate
        sampleRate := match (cs.flatMap (·.specs)).getLast? with
          | some s => sampleRates[s.1]? | none => i.sampleRate
        channelConfig := match (cs.flatMap (·.specs)).getLast? with
          | some s => channelOf s.2 | none => i.channelConfig } := by
  induction cs generalizing i with
  | nil => simp
  | cons c cs ih =>
    rw [List.foldl_cons, ih, applyConfig, applySpec_fold, List.getLast?_cons, List.flatMap_cons,
      List.getLast?_append]
    cases cs.getLast? <;> cases (cs.flatMap (·.specs)).getLast? <;> cases c.specs.getLast? <;> simp

theorem mkTag_spec (ftyp : Str) (m : Mp4.Moov) (dur audio) (atoms : List AtomData) (h1 : m.mvhd = dur)
    (h2 : m.trak.findSome? trakMp4a = audio.map mp4aOf) (h3 : ((m.udta.bind id).bind id).getD [] = atoms) :
    mkTag ftyp m = { ftyp, info := audioInfo dur audio, atoms } := by
  unfold mkTag
  simp only [h1, h2, h3]
  cases audio with
  | none => cases dur <;> rfl
  | some cs =>
    simp only [Option.map_some, mp4aOf, applyConfig_fold, audioInfo, Option.getD_some, Option.or_none]
    cases (cs.flatMap (·.specs)).getLast? <;> cases dur <;> rfl

/-! ### The top level -/

theorem topWalk_at {e F} {moov : Box} {r : Out (Mp4.Moov × Nat)} (hF : Fit e F) (hm : moov.fc = cc 'm' 'o' 'o' 'v')
    (hmf : moov.Fits) :
    ∀ (pre : List Box) (fuel parsed p len : Nat),
    (∀ b ∈ pre, b.Fits ∧ b.fc ≠ cc 'm' 'o' 'o' 'v') → At F p (serL id pre ++ moov.ser) →
    p - parsed + len = F.length → parsed ≤ p → pre.length < fuel →
    parseMoov moov.size e F (p + (serL id pre).length + moov.headLen) = r →
    topWalk len fuel parsed e F p = r := by
  intro pre
  induction pre with
  | nil =>
    intro fuel parsed p len _ hat hl hp hf hr
    cases fuel with
    | zero => simp at hf
    | succ fuel =>
      have hle := hat.le
      have h1 := moov.ser_length
      have h2 := moov.headLen_pos
      rw [serL_nil, List.nil_append] at hat hle
      rw [topWalk, P.if_apply, if_neg (by omega), P.bind_ok (parseHead_box hat hmf hF.len e)]
      have : moov.hd.fourcc = MOVIE := hm
      rw [if_pos this]
      exact hr
  | cons b pre ih =>
    intro fuel parsed p len hw hat hl hp hf hr
    cases fuel with
    | zero => simp at hf
    | succ fuel =>
      have hle := hat.le
      have h1 := b.ser_length
      have h2 := b.headLen_pos
      have h3 := hF.len
      have hb := hw b (by simp)
      rw [serL_cons, List.append_assoc] at hat hle
      rw [List.length_append] at hle
      rw [serL_cons, List.length_append] at hr
      have hfc : ¬ b.hd.fourcc = MOVIE := hb.2
      have ha : addU parsed b.hd.size.len e = .ok (parsed + b.ser.length) := by
        have : b.hd.size.len = b.ser.length := by rw [h1]; rfl
        simp only [id] at hle
        rw [this, addU, if_pos (by omega)]
      simp only [id] at hat hle hr
      rw [topWalk, P.if_apply, if_neg (by omega), P.bind_ok (parseHead_box hat.left hb.1 hF.len e), if_neg hfc,
        P.bind_ok (skipContent_box hat.left hF), P.bind_ok (E.p_ok ha F _)]
      exact ih fuel _ _ _ (fun x hx => hw x (by simp [hx])) (hat.right rfl) (by omega) (by omega)
        (by simpa using hf) (by rw [Nat.add_assoc p]; exact hr)

theorem remaining_at {e F p} (hF : Fit e F) (hp : p ≤ F.length) :
    remainingStreamLen e F p = .ok (F.length - p, p) := by
  rw [remainingStreamLen, P.bind_ok (show tellP e F p = .ok (p, p) from rfl),
    P.bind_ok (show seekEnd e F p = .ok (F.length, F.length) from rfl)]
  have : subU F.length p e = .ok (F.length - p) := by rw [subU, if_pos hp]
  rw [P.bind_ok (E.p_ok this F _)]
  have h := hF.len
  have : seekStart p e F F.length = .ok ((), p) := by
    have := hF.pos
    rw [seekStart]
    first | rfl | (rw [if_pos (by omega)])
  rw [P.bind_ok this]; rfl

theorem parseFtyp_at {e F p} {ext : Bool} {s : Str} (hF : Fit e F) (hfit : (⟨ext, cc 'f' 't' 'y' 'p', utf8 s⟩ : Box).Fits)
    (hat : At F p (⟨ext, cc 'f' 't' 'y' 'p', utf8 s⟩ : Box).ser) :
    parseFtyp e F p = .ok (s, p + (⟨ext, cc 'f' 't' 'y' 'p', utf8 s⟩ : Box).ser.length) := by
  have hle := hat.le
  have h := hF.len
  have hsl := (⟨ext, cc 'f' 't' 'y' 'p', utf8 s⟩ : Box).ser_length
  generalize hb : (⟨ext, cc 'f' 't' 'y' 'p', utf8 s⟩ : Box) = b at *
  have hbody : b.body = utf8 s := by rw [← hb]
  have hfc : b.hd.fourcc = FILETYPE := by rw [← hb]; rfl
  have hc : b.hd.size.contentLen e = .ok (utf8 s).length := by rw [← hbody]; exact b.contentLen e
  have hat2 := Box.body_at hat
  rw [hbody] at hat2 hsl
  rw [parseFtyp, P.bind_ok (parseHead_box hat hfit h e)]
  simp only [hfc, ne_eq, not_true_eq_false, if_false]
  rw [P.bind_ok (E.p_ok hc F _), readUtf8_at hat2 rfl (by omega) e, hsl, Nat.add_assoc]

/-- Reading a file from the position of its `ftyp` atom yields its content and ends behind the `moov` atom, whatever comes before that
position and after the `moov` atom. -/
theorem readTagP_at {e F p} {f : File} {t : Tag} (hF : Fit e F)
    (h1 : f.ftypBox.Fits) (h2 : f.moovBox.Fits) (h3 : f.moov.WF)
    (h4 : ∀ b ∈ f.pre, b.Fits ∧ b.fc ≠ cc 'm' 'o' 'o' 'v') (hc : f.Content t)
    (hat : At F p (f.ftypBox.ser ++ (serL id f.pre ++ f.moovBox.ser))) :
    readTagP e F p = .ok (t, p + (f.ftypBox.ser ++ (serL id f.pre ++ f.moovBox.ser)).length) := by
  obtain ⟨dur, audio, items, hm, rfl⟩ := hc
  have hle := hat.le
  have hlen := serL_length_le id f.pre
  have hfuel := hF.fuel
  simp only [List.length_append] at hle
  have hat2 := hat.right rfl
  have hat3 := hat2.right rfl
  obtain ⟨m, hm1, hm2, hm3, hm4⟩ := parseMoov_at (b := f.moovBox) hF hat3 rfl h3 hm
  have htop := topWalk_at hF (moov := f.moovBox) rfl h2 f.pre e.fuel 0 (p + f.ftypBox.ser.length)
    (F.length - (p + f.ftypBox.ser.length)) h4 hat2 (by omega) (by omega) (by omega) hm1
  have hft : parseFtyp e F p = .ok (f.ftyp, p + f.ftypBox.ser.length) := parseFtyp_at hF h1 hat.left
  rw [readTagP, P.bind_ok hft]
  rw [P.bind_ok (remaining_at hF (show p + f.ftypBox.ser.length ≤ F.length by omega)),
    P.bind_ok (show getFuel e F _ = .ok (e.fuel, _) from rfl), P.bind_ok htop, ← mkTag_spec f.ftyp m dur audio _ hm2 hm3 hm4,
    P.pure_apply]
  simp only [List.length_append, Nat.add_assoc]

theorem readTag_at {e F p} {f : File} {t : Tag} (hF : Fit e F)
    (h1 : f.ftypBox.Fits) (h2 : f.moovBox.Fits) (h3 : f.moov.WF)
    (h4 : ∀ b ∈ f.pre, b.Fits ∧ b.fc ≠ cc 'm' 'o' 'o' 'v') (hc : f.Content t)
    (hat : At F p (f.ftypBox.ser ++ (serL id f.pre ++ f.moovBox.ser))) :
    readTag e F p = .ok t := by
  rw [readTag, readTagP_at hF h1 h2 h3 h4 hc hat]; rfl

/-- Reading a well-formed file yields its content. -/
theorem read_spec {e : Env} {X Y : Bytes} {f : File} {t : Tag} (hF : Fit e (X ++ f.ser ++ Y)) (hw : f.WF)
    (hc : f.Content t) : readTag e (X ++ f.ser ++ Y) X.length = .ok t := by
  obtain ⟨h1, h2, h3, h4, h5⟩ := hw
  refine readTag_at hF h1 h2 h3 h4 hc ?_
  refine At_intro' X (serL id f.post ++ Y) ?_ rfl
  simp [File.ser]

end Mp4
