import Verif.Proof.SaneRead
/-
Writing to arbitrary input: which panics are left.
-/
namespace Mp4
open Spec

/-! ### Heads found by the search -/

/-- The bounds are those of an atom `fc` whose head is in the input. -/
def HeadB (F : Bytes) (fc : Fourcc) (b : AtomBounds) : Prop := HeadOf F b.pos ⟨b.size, fc⟩

theorem parseHead_of {e F p h q} (hh : parseHead e F p = .ok (h, q)) : q = p + h.size.headLen ∧ HeadB F h.fourcc ⟨p, h.size⟩ := by
  have := Tot.parseHead (pn := True) (e := e) (F := F) (p := p) (Q := fun h q => q = p + h.size.headLen ∧ HeadB F h.fourcc ⟨p, h.size⟩)
    fun h hh => ⟨rfl, hh⟩
  unfold Tot at this
  rw [hh] at this
  exact this

theorem walk_inv_of {σ} {limit : E Nat} {handle : σ → Head → P σ} (I : σ → Prop) {e F}
    (hh : ∀ s h p s' p', I s → HeadB F h.fourcc ⟨p, h.size⟩ → handle s h e F (p + h.size.headLen) = .ok (s', p') → I s') :
    ∀ f s parsed p s' p', I s → walk limit handle f s parsed e F p = .ok (s', p') → I s'
  | 0, s, parsed, p, s', p', _, h => by simp [walk, outOfFuel] at h
  | f+1, s, parsed, p, s', p', hs, h => by
    rw [walk] at h
    obtain ⟨lim, q, hl, ha⟩ := P.bind_inv h
    rw [P.if_apply] at ha
    split at ha
    · obtain ⟨hd, q1, hp, hb⟩ := P.bind_inv ha
      obtain ⟨s1, q2, h1, hc⟩ := P.bind_inv hb
      obtain ⟨n, q3, _, hd'⟩ := P.bind_inv hc
      obtain ⟨hq, hat⟩ := parseHead_of hp
      rw [hq] at h1
      exact walk_inv_of I hh f s1 n q3 s' p' (hh _ _ _ _ _ hs hat h1) hd'
    · obtain ⟨hx, -⟩ := P.pure_inv ha
      rw [← hx]
      exact hs

theorem loop_inv_of {σ} {limit : E Nat} {handle : σ → Head → P σ} (I : σ → Prop) {e F}
    (hh : ∀ s h p s' p', I s → HeadB F h.fourcc ⟨p, h.size⟩ → handle s h e F (p + h.size.headLen) = .ok (s', p') → I s')
    {s parsed p s' p'} (h : loop limit handle s parsed e F p = .ok (s', p')) (hs : I s) : I s' := by
  rw [loop] at h
  obtain ⟨f, q, _, h⟩ := P.bind_inv h
  exact walk_inv_of I hh _ _ _ _ _ _ hs h

/-- What a search function returns for an atom `fc` satisfies `Q`. -/
def Finds (e : Env) (F : Bytes) {τ} (find : Size → P τ) (fc : Fourcc) (Q : τ → Prop) : Prop :=
  ∀ s p b q, HeadB F fc ⟨p, s⟩ → find s e F (p + s.headLen) = .ok (b, q) → Q b

theorem findLeaf_finds {e F fc} : Finds e F findLeaf fc (HeadB F fc) := fun _ _ _ _ hh h => by
  rw [findLeaf_inv h]; exact hh

/-- A child that is interpreted. -/
theorem Finds.step {e F} {σ τ : Type} {find : Size → P τ} {fc : Fourcc} {Q : τ → Prop} (hf : Finds e F find fc Q) {I : σ → Prop}
    {g : τ → σ} {hd : Head} {p : Nat} {s' : σ} {p' : Nat} (hfc : hd.fourcc = fc) (hat : HeadB F hd.fourcc ⟨p, hd.size⟩)
    (h : (do let a ← find hd.size; Pure.pure (g a) : P σ) e F (p + hd.size.headLen) = .ok (s', p')) (hg : ∀ a, Q a → I (g a)) : I s' := by
  obtain ⟨a, q3, h3, h⟩ := P.bind_inv h
  obtain ⟨rfl, rfl⟩ := P.pure_inv h
  rw [hfc] at hat
  exact hg _ (hf _ _ _ _ hat h3)

/-- A child that is skipped. -/
theorem skip_step {e F} {σ : Type} {I : σ → Prop} {s : σ} {hd : Head} {p : Nat} {s' : σ} {p' : Nat} (hs : I s)
    (h : (do skipContent hd; Pure.pure s : P σ) e F p = .ok (s', p')) : I s' := by
  obtain ⟨a, q3, h3, h⟩ := P.bind_inv h
  obtain ⟨rfl, rfl⟩ := P.pure_inv h
  exact hs

def FoundStbl (F : Bytes) (s : StblBounds) : Prop :=
  optAll (HeadB F SAMPLE_TABLE_CHUNK_OFFSET) s.stco ∧ optAll (HeadB F SAMPLE_TABLE_CHUNK_OFFSET_64) s.co64

theorem findStbl_finds {e F fc} : Finds e F findStbl fc (FoundStbl F) := by
  intro s p b q hh h
  unfold findStbl at h
  obtain ⟨b', q1, h1, h2⟩ := P.bind_inv h
  refine loop_inv_of (FoundStbl F) ?_ h2 ⟨trivial, trivial⟩
  intro st hd p0 st' p' hs hat hr
  rw [P.if_apply] at hr
  split at hr
  · exact findLeaf_finds.step (by assumption) hat hr fun a ha => ⟨ha, hs.2⟩
  · rw [P.if_apply] at hr
    split at hr
    · exact findLeaf_finds.step (by assumption) hat hr fun a ha => ⟨hs.1, ha⟩
    · exact skip_step hs hr

/-- A container that interprets one kind of child. -/
theorem find_one_finds {e F} {τ : Type} {find : Size → P τ} {fc fc' : Fourcc} {Q : τ → Prop} (hf : Finds e F find fc Q) :
    Finds e F (fun size => do
      let _ ← findBounds size
      loop size.contentLen (fun s h => if h.fourcc = fc then do let a ← find h.size; pure (some a) else do skipContent h; pure s) none 0)
      fc' (optAll Q) := by
  intro s p b q hh h
  obtain ⟨b', q1, h1, h2⟩ := P.bind_inv h
  refine loop_inv_of (optAll Q) ?_ h2 trivial
  intro st hd p0 st' p' hs hat hr
  rw [P.if_apply] at hr
  split at hr
  · exact hf.step (by assumption) hat hr fun a ha => ha
  · exact skip_step hs hr

theorem findMinf_finds {e F fc} : Finds e F findMinf fc (optAll (FoundStbl F)) := find_one_finds (findStbl_finds (fc := SAMPLE_TABLE))
theorem findMdia_finds {e F fc} : Finds e F findMdia fc (optAll (optAll (FoundStbl F))) :=
  find_one_finds (findMinf_finds (fc := MEDIA_INFORMATION))
theorem findTrak_finds {e F fc} : Finds e F findTrak fc (optAll (optAll (optAll (FoundStbl F)))) :=
  find_one_finds (findMdia_finds (fc := MEDIA))

def FoundMetaB (F : Bytes) (m : MetaBounds) : Prop := HeadB F METADATA m.bounds ∧ optAll (HeadB F ITEM_LIST) m.ilst
def FoundUdtaB (F : Bytes) (u : UdtaBounds) : Prop := HeadB F USER_DATA u.bounds ∧ optAll (FoundMetaB F) u.meta?
def FoundMoovB (F : Bytes) (m : MoovBounds) : Prop :=
  HeadB F MOVIE m.bounds ∧ optAll (FoundUdtaB F) m.udta ∧ ∀ t ∈ m.trak, optAll (optAll (optAll (FoundStbl F))) t

theorem findMeta_finds {e F} : Finds e F findMeta METADATA (FoundMetaB F) := by
  intro s p b q hh h
  unfold findMeta at h
  obtain ⟨b', q1, h1, h2⟩ := P.bind_inv h
  obtain ⟨⟨v, fl⟩, q2, h3, h4⟩ := P.bind_inv h2
  dsimp only at h4
  rw [P.if_apply] at h4
  split at h4
  · exact absurd h4 P.fail_inv
  · refine loop_inv_of (FoundMetaB F) ?_ h4 ⟨?_, trivial⟩
    · intro st hd p0 st' p' hs hat hr
      rw [P.if_apply] at hr
      split at hr
      · exact (findLeaf_finds (fc := HANDLER_REFERENCE)).step (by assumption) hat hr fun a ha => hs
      · rw [P.if_apply] at hr
        split at hr
        · exact findLeaf_finds.step (by assumption) hat hr fun a ha => ⟨hs.1, ha⟩
        · exact skip_step hs hr
    · rw [(findBounds_inv h1).1]; exact hh

theorem findUdta_finds {e F} : Finds e F findUdta USER_DATA (FoundUdtaB F) := by
  intro s p b q hh h
  unfold findUdta at h
  obtain ⟨b', q1, h1, h2⟩ := P.bind_inv h
  refine loop_inv_of (FoundUdtaB F) ?_ h2 ⟨?_, trivial⟩
  · intro st hd p0 st' p' hs hat hr
    rw [P.if_apply] at hr
    split at hr
    · exact findMeta_finds.step (by assumption) hat hr fun a ha => ⟨hs.1, ha⟩
    · exact skip_step hs hr
  · rw [(findBounds_inv h1).1]; exact hh

theorem findMoov_finds {e F} : Finds e F findMoov MOVIE (FoundMoovB F) := by
  intro s p b q hh h
  unfold findMoov at h
  obtain ⟨b', q1, h1, h2⟩ := P.bind_inv h
  refine loop_inv_of (FoundMoovB F) ?_ h2 ⟨?_, trivial, by simp⟩
  · intro st hd p0 st' p' hs hat hr
    rw [P.if_apply] at hr
    split at hr
    · refine findTrak_finds.step (by assumption) hat hr fun a ha => ⟨hs.1, hs.2.1, fun t ht => ?_⟩
      rcases List.mem_append.mp ht with ht | ht
      · exact hs.2.2 t ht
      · rw [List.mem_singleton.mp ht]; exact ha
    · rw [P.if_apply] at hr
      split at hr
      · exact findUdta_finds.step (by assumption) hat hr fun a ha => ⟨hs.1, ha, hs.2.2⟩
      · exact skip_step hs hr
  · rw [(findBounds_inv h1).1]; exact hh

theorem findTop_finds {e F p mp m q} (h : findTop e F p = .ok ((mp, m), q)) : FoundMoovB F m := by
  unfold findTop at h
  obtain ⟨_, q1, h1, h⟩ := P.bind_inv h
  obtain ⟨len, q2, h2, h⟩ := P.bind_inv h
  obtain ⟨t, q3, h3, h⟩ := P.bind_inv h
  have ht := loop_inv_of (fun t : TopBounds => optAll (FoundMoovB F) t.moov) (by
    intro st hd p0 st' p' hs hat hr
    rw [P.if_apply] at hr
    split at hr
    · exact findMoov_finds.step (I := fun t : TopBounds => optAll (FoundMoovB F) t.moov) (by assumption) hat hr fun a ha => ha
    · rw [P.if_apply] at hr
      split at hr
      · exact (findLeaf_finds (fc := MEDIA_DATA)).step (I := fun t : TopBounds => optAll (FoundMoovB F) t.moov) (by assumption) hat hr
          fun a ha => hs
      · exact skip_step (I := fun t : TopBounds => optAll (FoundMoovB F) t.moov) hs hr) (s := {}) h3 trivial
  cases hm : t.moov with
  | none => rw [hm] at h; exact absurd h P.fail_inv
  | some m' =>
    rw [hm] at h ht
    obtain ⟨h, rfl⟩ := P.pure_inv h
    simp only [Prod.mk.injEq] at h
    obtain ⟨rfl, rfl⟩ := h
    exact ht

/-! ### The plan -/

/-- The atoms whose sizes are of interest to the plan. -/
def outer : List Fourcc := [MOVIE, USER_DATA, METADATA, ITEM_LIST]

/-- Succeeds with `Q`, or panics; the latter only if `pn`. -/
def ETot {α} (pn : Prop) (e : Env) (m : E α) (Q : α → Prop) : Prop := (∃ a, m e = .ok a ∧ Q a) ∨ (m e = .panic ∧ pn)

theorem ETot.bind {α β pn e} {m : E α} {f : α → E β} {Q : α → Prop} {R : β → Prop} (h1 : ETot pn e m Q) (h2 : ∀ a, Q a → ETot pn e (f a) R) :
    ETot pn e (m >>= f) R := by
  unfold ETot
  rw [show (m >>= f) e = (m e).bind (fun a => f a e) from rfl]
  rcases h1 with ⟨a, ha, hq⟩ | ⟨hp, hpn⟩
  · rw [ha]; exact h2 a hq
  · rw [hp]; exact .inr ⟨rfl, hpn⟩
theorem ETot.pure {α pn e} {a : α} {Q : α → Prop} (h : Q a) : ETot pn e (Pure.pure a : E α) Q := .inl ⟨a, rfl, h⟩

theorem ETot.end_ {pn e F fc} (hs : SaneB e F) {b : AtomBounds} (hb : HeadB F fc b) :
    ETot pn e b.end_ fun n => n = b.pos + b.size.len := by
  have h1 := hs.size hb
  have h2 := hb.le
  have h3 := hs.fit.len
  have h4 := hs.max
  dsimp only at h1 h2
  exact .inl ⟨_, by unfold AtomBounds.end_ addU; exact if_pos (by omega), rfl⟩

theorem ETot.addI {pn e} {a b : Int} {Q : Int → Prop} (h : e.checked = true → ¬ pn → -2^63 ≤ a + b ∧ a + b < 2^63)
    (hQ : ∀ n, Q n) : ETot pn e (addI a b) Q := by
  unfold ETot Mp4.addI
  by_cases hr : -2^63 ≤ a + b ∧ a + b < 2^63
  · rw [if_pos hr]; exact .inl ⟨_, rfl, hQ _⟩
  · rw [if_neg hr]
    cases hc : e.checked with
    | false => rw [if_neg (by simp)]; exact .inl ⟨_, rfl, hQ _⟩
    | true =>
      rw [if_pos (by simp)]
      exact .inr ⟨rfl, Classical.byContradiction fun hp => hr (h hc hp)⟩

theorem ETot.subI {pn e} {a b : Int} {Q : Int → Prop} (h : -2^63 ≤ a - b ∧ a - b < 2^63)
    (hQ : Q (a - b)) : ETot pn e (subI a b) Q := by
  unfold ETot Mp4.subI
  rw [if_pos h]; exact .inl ⟨_, rfl, hQ⟩

/-- The data behind the insertion point begins where one of the atoms ends, and the atoms to update are such atoms. -/
def PlanAt (F : Bytes) (p : Plan) : Prop :=
  (∃ fc ∈ outer, ∃ b, HeadB F fc b ∧ p.movedDataStart = b.pos + b.size.len) ∧ ∀ a ∈ p.updateAtoms, ∃ fc ∈ outer, HeadB F fc a

theorem mkPlan_tot {pn e F moov} {atoms : List AtomData} (hs : SaneB e F) (hf : FoundMoovB F moov)
    (hB : e.checked = true → ¬ pn → insertBound atoms < 2^62) : ETot pn e (mkPlan moov atoms) (PlanAt F) := by
  obtain ⟨mb, tr, ud⟩ := moov
  obtain ⟨hm, hu, -⟩ := hf
  have h1 : MOVIE ∈ outer := by simp [outer]
  have h2 : USER_DATA ∈ outer := by simp [outer]
  have h3 : METADATA ∈ outer := by simp [outer]
  have h4 : ITEM_LIST ∈ outer := by simp [outer]
  match ud, hu with
  | none, _ =>
    simp only [mkPlan, Option.bind_none]
    refine .bind (.pure (Q := fun x => x = (0, 0, 0)) rfl) ?_
    rintro _ rfl
    refine .bind (.pure (Q := fun x => x = (0, 0)) rfl) ?_
    rintro _ rfl
    refine .bind (.bind (.end_ hs hm) fun n hn => .pure (Q := fun x => x = (mb.pos + mb.size.len, mb.pos + mb.size.len)) (by rw [hn])) ?_
    rintro _ rfl
    refine .bind (.addI (Q := fun _ => True) (fun hc hp => ?_) fun _ => trivial) fun d _ => .pure ?_
    · have hins := insert_le atoms (some metaHdlr) (.inl rfl)
      have := hB hc hp
      have hlt : (udtaSize (some ⟨some metaHdlr, some atoms⟩)).len < 2^62 := by omega
      have := asI64_small (Nat.lt_trans hlt (by decide))
      constructor <;> dsimp only <;> simp only [Option.isNone_none, if_true] <;> omega
    · refine ⟨⟨_, h1, mb, hm, rfl⟩, fun a ha => ?_⟩
      simp only [List.nil_append, List.mem_singleton] at ha
      exact ⟨_, h1, ha ▸ hm⟩
  | some ⟨bu, none⟩, hu =>
    simp only [mkPlan, Option.bind_some]
    refine .bind (.pure (Q := fun x => x = (0, 0, 0)) rfl) ?_
    rintro _ rfl
    refine .bind (.pure (Q := fun x => x = (0, 0)) rfl) ?_
    rintro _ rfl
    refine .bind (.bind (.end_ hs hu.1) fun n hn => .pure (Q := fun x => x = (bu.pos + bu.size.len, bu.pos + bu.size.len)) (by rw [hn])) ?_
    rintro _ rfl
    refine .bind (.addI (Q := fun _ => True) (fun hc hp => ?_) fun _ => trivial) fun d _ => .pure ?_
    · have hins := insert_le atoms (some metaHdlr) (.inl rfl)
      have := hB hc hp
      have hlt : (MetaW.size ⟨some metaHdlr, some atoms⟩).len < 2^62 := by omega
      have := asI64_small (Nat.lt_trans hlt (by decide))
      constructor <;> dsimp only <;> simp only [Option.bind_none, Option.isNone_none, if_true] <;> omega
    · refine ⟨⟨_, h2, bu, hu.1, rfl⟩, fun a ha => ?_⟩
      simp only [List.nil_append, List.mem_append, List.mem_singleton] at ha
      rcases ha with rfl | rfl
      · exact ⟨_, h2, hu.1⟩
      · exact ⟨_, h1, hm⟩
  | some ⟨bu, some ⟨bm, hd, none⟩⟩, hu =>
    simp only [mkPlan, Option.bind_some]
    refine .bind (.pure (Q := fun x => x = (0, 0, 0)) rfl) ?_
    rintro _ rfl
    refine .bind (.bind (.end_ hs hu.2.1) fun n hn => .pure (Q := fun x => x = (bm.pos + bm.size.len, bm.pos + bm.size.len)) (by rw [hn])) ?_
    rintro _ rfl
    refine .bind (.pure (Q := fun x => x = (bm.pos + bm.size.len, bm.pos + bm.size.len)) rfl) ?_
    rintro _ rfl
    refine .bind (.addI (Q := fun _ => True) (fun hc hp => ?_) fun _ => trivial) fun d _ => .pure ?_
    · have hins := insert_le atoms (if hd.isNone then some metaHdlr else none) (by split <;> simp)
      have := hB hc hp
      have hlt : lenOrZero hdlrSize (if hd.isNone then some metaHdlr else none) + (ilstSize atoms).len < 2^62 := by omega
      have := asI64_small (Nat.lt_trans hlt (by decide))
      constructor <;> dsimp only <;> omega
    · refine ⟨⟨_, h3, bm, hu.2.1, rfl⟩, fun a ha => ?_⟩
      simp only [List.mem_append, List.mem_singleton] at ha
      rcases ha with (rfl | rfl) | rfl
      · exact ⟨_, h3, hu.2.1⟩
      · exact ⟨_, h2, hu.1⟩
      · exact ⟨_, h1, hm⟩
  | some ⟨bu, some ⟨bm, hd, some bi⟩⟩, hu =>
    simp only [mkPlan, Option.bind_some]
    have hbi : HeadB F ITEM_LIST bi := hu.2.2
    have hsz := hs.size hbi
    dsimp only at hsz
    have hi := asI64_small (n := bi.size.len) hsz.2
    refine .bind (.bind (.end_ hs hbi) fun n hn => .bind (.subI (Q := fun d => d = 0 - asI64 bi.size.len) (by omega) rfl) fun d hd' =>
      .pure (Q := fun x => x = (bi.pos, bi.pos + bi.size.len, 0 - asI64 bi.size.len)) (by rw [hn, hd'])) ?_
    rintro _ rfl
    refine .bind (.pure (Q := fun x => x = (bi.pos, bi.pos + bi.size.len)) rfl) ?_
    rintro _ rfl
    refine .bind (.pure (Q := fun x => x = (bi.pos, bi.pos + bi.size.len)) rfl) ?_
    rintro _ rfl
    refine .bind (.addI (Q := fun _ => True) (fun hc hp => ?_) fun _ => trivial) fun d _ => .pure ?_
    · have hins := insert_le atoms (if hd.isNone then some metaHdlr else none) (by split <;> simp)
      have := hB hc hp
      have hlt : lenOrZero hdlrSize (if hd.isNone then some metaHdlr else none) + (ilstSize atoms).len < 2^62 := by omega
      have := asI64_small (Nat.lt_trans hlt (by decide))
      constructor <;> dsimp only <;> omega
    · refine ⟨⟨_, h4, bi, hbi, rfl⟩, fun a ha => ?_⟩
      simp only [List.mem_append, List.mem_singleton] at ha
      rcases ha with (rfl | rfl) | rfl
      · exact ⟨_, h3, hu.2.1⟩
      · exact ⟨_, h2, hu.1⟩
      · exact ⟨_, h1, hm⟩

theorem Tot.ofE {α pn e F p} {m : Mp4.E α} {Q : α → Prop} {R : α → Nat → Prop} (h : ETot pn e m Q) (hR : ∀ a, Q a → R a p) :
    Tot pn e F p m.p R := by
  unfold Tot E.p
  rcases h with ⟨a, ha, hq⟩ | ⟨hp, hpn⟩
  · rw [ha]; exact hR a hq
  · rw [hp]; exact hpn

theorem contained_end {F : Bytes} (hc : Contained F) {fc} (hfc : fc ∈ outer) {b : AtomBounds} (hb : HeadB F fc b) :
    b.pos + b.size.len ≤ F.length := by
  have h1 := hc _ fc _ _ hfc hb.headIn
  have h2 := hb.le
  dsimp only at h1 h2
  rw [List.length_drop, ← headLen_hlen] at h1
  omega

theorem preparePhase_tot {pn e F} {atoms : List AtomData} (hs : SaneB e F) (hc : ¬ pn → Contained F)
    (hB : e.checked = true → ¬ pn → insertBound atoms < 2^62) (p : Nat) :
    Tot pn e F p (preparePhase atoms) fun x _ => FoundMoovB F x.2.1 ∧ PlanAt F x.2.2.1 := by
  have hF := hs.fit.len
  have hm := hs.max
  unfold preparePhase
  have h0 : Tot pn e F p findTop fun x _ => FoundMoovB F x.2 := by
    have := findTop_tot (pn := pn) hs p
    unfold Tot at this ⊢
    cases hx : findTop e F p with
    | ok y =>
      obtain ⟨⟨mp, m⟩, q⟩ := y
      exact findTop_finds hx
    | err k => trivial
    | panic => rw [hx] at this; exact this
    | fuel => rw [hx] at this; exact this
  refine .bind h0 ?_
  rintro ⟨mp, moov⟩ q hf
  dsimp only at hf ⊢
  refine .bind (.ofE (R := fun pl r => q = r ∧ PlanAt F pl) (mkPlan_tot hs hf hB) fun a ha => ⟨rfl, ha⟩) ?_
  rintro pl _ ⟨rfl, hpl⟩
  refine .bind (.seekEnd (Q := fun n r => n = F.length ∧ r = F.length) ⟨rfl, rfl⟩) ?_
  rintro _ _ ⟨rfl, rfl⟩
  have hmv : ¬ pn → pl.movedDataStart ≤ F.length := fun hp => by
    obtain ⟨fc, hfc, b, hb, he⟩ := hpl.1
    rw [he]
    exact contained_end (hc hp) hfc hb
  have hpn : F.length < pl.movedDataStart → pn := fun h => Classical.byContradiction fun hp => by have := hmv hp; omega
  refine .bind (.subU (Q := fun n r => n ≤ F.length ∨ pn) (fun _ => .inl (by omega)) (fun h _ => hpn h)
    fun h _ => .inr (hpn h)) fun n q1 hn => ?_
  refine .bind (.alloc (Q := fun _ _ => True) (fun h => ?_) fun _ => trivial) fun _ q2 _ => ?_
  · rcases hn with hn | hn
    · omega
    · exact hn
  refine .bind (.seekStart (Q := fun _ _ => True) fun _ => trivial) fun _ q3 _ => ?_
  refine .bind (show Tot pn e F q3 readToEnd fun _ _ => True from trivial) fun _ q4 _ => .pure ⟨hf, hpl⟩

/-! ### The writing phase -/

/-- Panics only if `pn`; results satisfy `Q`. -/
def WTot {α} (pn : Prop) (e : Env) (m : W α) (Q : α → Prop) : Prop := ∀ s, match (m e s).1 with
  | .ok a => Q a
  | .panic => pn
  | _ => True

section
variable {pn : Prop} {e : Env}

theorem WTot.bind {α β} {m : W α} {f : α → W β} {Q : α → Prop} {R : β → Prop} (h1 : WTot pn e m Q)
    (h2 : ∀ a, Q a → WTot pn e (f a) R) : WTot pn e (m >>= f) R := by
  intro s
  rw [W.bind_apply]
  have := h1 s
  cases hm : m e s with
  | mk o s' =>
    rw [hm] at this
    cases o with
    | ok a => exact h2 a this s'
    | err k => trivial
    | panic => exact this
    | fuel => trivial

theorem WTot.pure {α} {a : α} {Q : α → Prop} (h : Q a) : WTot pn e (Pure.pure a : W α) Q := fun _ => h
theorem WTot.ofE {α} {m : Mp4.E α} {Q : α → Prop} (h : ETot pn e m Q) : WTot pn e m.w Q := fun s => by
  show match m e with
    | .ok a => Q a
    | .panic => pn
    | _ => True
  rcases h with ⟨a, ha, hq⟩ | ⟨hp, hpn⟩
  · rw [ha]; exact hq
  · rw [hp]; exact hpn
theorem WTot.of {m : W Unit} (h : ∀ s, (m e s).1 ≠ .panic) : WTot pn e m fun _ => True := fun s => by
  have := h s
  split
  · trivial
  · contradiction
  · trivial
theorem WTot.wWriteAll (b) : WTot pn e (wWriteAll b) fun _ => True := .of fun s => by
  unfold Mp4.wWriteAll; split
  · simp
  · dsimp only; split <;> split <;> simp
theorem WTot.wFlush : WTot pn e wFlush fun _ => True := .of fun s => by simp [Mp4.wFlush]
theorem WTot.wSeekStart (n) : WTot pn e (wSeekStart n) fun _ => True := .of fun s => by unfold Mp4.wSeekStart; dsimp only; split <;> simp
theorem WTot.wSeekCur (n) : WTot pn e (wSeekCur n) fun _ => True := .of fun s => by unfold Mp4.wSeekCur; dsimp only; split <;> simp
theorem WTot.wSetLen (n) : WTot pn e (wSetLen n) fun _ => True := .of fun s => by unfold Mp4.wSetLen; split <;> simp
theorem WTot.wAll {α} {f : α → W Unit} : ∀ l : List α, (∀ a ∈ l, WTot pn e (f a) fun _ => True) → WTot pn e (wAll f l) fun _ => True
  | [], _ => .pure trivial
  | x :: l, h => .bind (h x (by simp)) fun _ _ => WTot.wAll l fun a ha => h a (by simp [ha])
theorem WTot.wOpt {α} {f : α → W Unit} (x : Option α) (h : ∀ a, x = some a → WTot pn e (f a) fun _ => True) :
    WTot pn e (wOpt f x) fun _ => True := by
  cases x with
  | none => exact .pure trivial
  | some a => exact h a rfl
theorem WTot.wRead {α} {m : P α} {Q : α → Prop} (n) (h : ∀ F p x q, m e F p = .ok (x, q) → Q x) (hp : ∀ F p, m e F p = .panic → pn) :
    WTot pn e (wRead n m) Q := by
  intro s
  unfold Mp4.wRead
  dsimp only
  cases hx : ((seekStart n >>= fun _ => m : P α) e s.file 0) with
  | ok y =>
    obtain ⟨a, q⟩ := y
    obtain ⟨_, q1, _, h2⟩ := P.bind_inv hx
    exact h _ _ _ _ h2
  | err k =>
    trivial
  | panic =>
    rw [P.bind_apply] at hx
    unfold Mp4.seekStart at hx
    by_cases hn : n ≤ e.maxPos
    · simp only [if_pos hn] at hx
      exact hp _ _ hx
    · simp [if_neg hn] at hx
  | fuel =>
    trivial

theorem readTable_np (w) : ∀ n F p, readTable w n e F p ≠ .panic
  | 0, F, p => by simp [readTable, P.pure_apply]
  | n+1, F, p => by
    rw [readTable, P.bind_apply]
    unfold readExact
    by_cases h : w = 0 ∨ p + w ≤ F.length
    · simp only [if_pos h]
      rw [P.bind_apply]
      have := readTable_np w n F (p + w)
      split
      · simp [P.pure_apply]
      · simp
      · contradiction
      · simp
    · simp [if_neg h]

theorem readTable_lt (w) : ∀ n F p l q, readTable w n e F p = .ok (l, q) → ∀ x ∈ l, x < 256 ^ w
  | 0, F, p, l, q, h => by
    obtain ⟨rfl, -⟩ := P.pure_inv h
    simp
  | n+1, F, p, l, q, h => by
    rw [readTable] at h
    obtain ⟨b, q1, h1, h⟩ := P.bind_inv h
    obtain ⟨r, q2, h2, h⟩ := P.bind_inv h
    obtain ⟨rfl, -⟩ := P.pure_inv h
    obtain ⟨rfl, rfl, hl⟩ := readExact_inv h1
    intro x hx
    rcases List.mem_cons.mp hx with rfl | hx
    · refine Nat.lt_of_lt_of_le (beNat_lt_pow _) (Nat.pow_le_pow_right (by decide) ?_)
      rw [List.length_take]; omega
    · exact readTable_lt w n _ _ _ _ h2 x hx

theorem parseTable_tot (w : Nat) {s : Size} (hs : s.headLen ≤ s.len) (F p) :
    (∀ x q, parseTable w s e F p = .ok (x, q) → ∀ c ∈ x.2, c < 256 ^ w) ∧ parseTable w s e F p ≠ .panic := by
  unfold parseTable
  rw [P.bind_apply]
  cases h1 : parseFullHead e F p with
  | panic => have := Tot.fullHeadPos (pn := False) (e := e) (F := F) (p := p); unfold Tot at this; rw [h1] at this; exact this.elim
  | fuel => simp
  | err k => simp
  | ok y =>
    obtain ⟨⟨v, fl⟩, q1⟩ := y
    dsimp only
    rw [P.if_apply]
    split
    · rw [P.bind_apply]
      cases h2 : readU32 e F q1 with
      | panic => have := Tot.readU32 (pn := False) (e := e) (F := F) (p := q1) (Q := fun _ _ => True) fun _ _ _ => trivial
                 unfold Tot at this; rw [h2] at this; exact this.elim
      | fuel => simp
      | err k => simp
      | ok z =>
        obtain ⟨n, q2⟩ := z
        dsimp only
        rw [P.bind_ok (E.p_ok (contentLen_sane hs) F q2), P.if_apply]
        split
        · simp [Mp4.fail]
        · rw [P.bind_ok (show tellP e F q2 = .ok (q2, q2) from rfl), P.bind_apply]
          have hnp := readTable_np (e := e) w n F q2
          cases h3 : readTable w n e F q2 with
          | ok a =>
            obtain ⟨l, q3⟩ := a
            refine ⟨fun x q hx => ?_, by simp [P.pure_apply]⟩
            obtain ⟨rfl, -⟩ := P.pure_inv hx
            exact readTable_lt w n _ _ _ _ h3
          | err k => simp
          | panic => exact absurd h3 hnp
          | fuel => simp
    · simp [Mp4.fail]

theorem asI64_range {n : Nat} (h : n < 2^64) : -2^63 ≤ asI64 n ∧ asI64 n < 2^63 := by
  unfold asI64; split <;> omega

theorem patchTable_tot {F : Bytes} (hs : SaneB e F) {w : Nat} {d : Int} {fc} {a : AtomBounds} (ha : HeadB F fc a)
    (h : e.checked = true → ¬ pn → ∀ c < 256 ^ w, -2^63 ≤ asI64 c + d ∧ asI64 c + d < 2^63) :
    WTot pn e (patchTable w d a) fun _ => True := by
  have hsz := hs.size ha
  have hle := ha.le
  have hF := hs.fit.len
  have hm := hs.max
  dsimp only at hsz hle
  unfold patchTable
  refine .bind (.ofE (.inl ⟨a.pos + a.size.headLen, ?_, trivial⟩) (Q := fun _ => True)) fun n _ => ?_
  · unfold AtomBounds.contentPos addU; exact if_pos (by omega)
  refine .bind (.wRead (Q := fun x => ∀ c ∈ x.2, c < 256 ^ w) _ (fun F p x q => (parseTable_tot w hsz.1 F p).1 x q)
    fun F p hx => absurd hx (parseTable_tot w hsz.1 F p).2) ?_
  rintro ⟨tp, os⟩ ho
  dsimp only at ho ⊢
  refine .bind (.wSeekStart _) fun _ _ => .bind (.wAll _ fun c hc => ?_) fun _ _ => .wFlush
  exact .bind (.ofE (.addI (Q := fun _ => True) (fun h1 h2 => h h1 h2 c (ho c hc)) fun _ => trivial)) fun _ _ => .wWriteAll _

theorem patchHead_tot {d : Int} {a : AtomBounds}
    (h : e.checked = true → ¬ pn → -2^63 ≤ asI64 a.size.len + d ∧ asI64 a.size.len + d < 2^63) :
    WTot pn e (patchHead d a) fun _ => True := by
  unfold patchHead
  refine .bind (.ofE (.addI (Q := fun _ => True) h fun _ => trivial)) fun _ _ => .bind (.wSeekStart _) fun _ _ => ?_
  split
  · exact .bind (.wWriteAll _) fun _ _ => .bind (.wSeekCur _) fun _ _ => .wWriteAll _
  · exact .wWriteAll _

/-- Serialising panics only if `pn`. -/
def WrTot (pn : Prop) (e : Env) (m : Wr Unit) : Prop := (m e).2 = .panic → pn

theorem WrTot.bind {m : Wr Unit} {f : Unit → Wr Unit} (h1 : WrTot pn e m) (h2 : ∀ a, WrTot pn e (f a)) : WrTot pn e (m >>= f) := by
  show (Wr.bind m f e).2 = _ → _
  unfold Wr.bind
  cases hm : m e with
  | mk c o =>
    cases o with
    | ok a => exact h2 a
    | err k => intro h; simp at h
    | fuel => intro h; simp at h
    | panic => exact fun _ => h1 (by rw [hm])
theorem WrTot.addU32 {a b : Nat} {f : Nat → Wr Unit} (h : e.checked = true → ¬ pn → a + b < 2^32) (h2 : ∀ a, WrTot pn e (f a)) :
    WrTot pn e ((addU32 a b).wr >>= f) := by
  show (Wr.bind (Mp4.addU32 a b).wr f e).2 = _ → _
  unfold Wr.bind E.wr Mp4.addU32
  by_cases hl : a + b < 2^32
  · simp only [if_pos hl]; exact h2 _
  · simp only [if_neg hl]
    cases hc : e.checked with
    | true => exact fun _ => Classical.byContradiction fun hp => hl (h hc hp)
    | false => exact h2 _
theorem WrTot.emit (b) : WrTot pn e (emit b) := fun h => by simp [Mp4.emit] at h
theorem WrTot.pure : WrTot pn e (Pure.pure ()) := fun h => by
  have h : (Out.ok () : Out Unit) = .panic := h
  simp at h
theorem WrTot.wrAll {α} {f : α → Wr Unit} : ∀ l : List α, (∀ a ∈ l, WrTot pn e (f a)) → WrTot pn e (wrAll f l)
  | [], _ => .pure
  | x :: l, h => .bind (h x (by simp)) fun _ => WrTot.wrAll l fun a ha => h a (by simp [ha])
theorem WrTot.writeHead (h : Head) : WrTot pn e (writeHead h) := by
  unfold Mp4.writeHead
  split
  · exact .bind (.emit _) fun _ => .bind (.emit _) fun _ => .emit _
  · exact .bind (.emit _) fun _ => .emit _
theorem WrTot.writeRaw (d : Data) : WrTot pn e d.writeRaw := by
  cases d <;> first | exact .emit _ | exact .wrAll _ fun _ _ => .emit _
theorem WrTot.writeDataAtom {d : Data} (h : e.checked = true → ¬ pn → 16 + d.len < 2^32) : WrTot pn e (writeDataAtom d) :=
  .addU32 (fun h1 h2 => by have := h h1 h2; omega) fun _ => .bind (.emit _) fun _ => .bind (.emit _) fun _ =>
    .bind (.emit _) fun _ => .bind (.emit _) fun _ => .writeRaw d
theorem WrTot.writeStrAtom {f : Fourcc} {s : Str} (h : e.checked = true → ¬ pn → 12 + (utf8Enc s).length < 2^32) :
    WrTot pn e (writeStrAtom f s) :=
  .addU32 (fun h1 h2 => by have := h h1 h2; omega) fun _ => .bind (.emit _) fun _ => .bind (.emit _) fun _ => .bind (.emit _) fun _ => .emit _

theorem mem_le_sum {α} {f : α → Nat} : ∀ {l : List α} {a}, a ∈ l → f a ≤ (l.map f).sum
  | x :: l, a, h => by
    rw [List.map_cons, List.sum_cons]
    rcases List.mem_cons.mp h with rfl | h
    · omega
    · have := mem_le_sum (f := f) h; omega

theorem WrTot.atom {a : AtomData} (h : e.checked = true → ¬ pn → a.len < 2^32) : WrTot pn e a.write := by
  have hd : ∀ d ∈ a.data, 16 + d.len ≤ a.len := fun d hd => by
    have := mem_le_sum (f := fun d : Data => 16 + d.len) hd
    unfold AtomData.len
    dsimp only at this ⊢
    split <;> omega
  have hds := fun d (hm : d ∈ a.data) => WrTot.writeDataAtom (pn := pn) (e := e) (d := d) fun h1 h2 => by
    have := h h1 h2; have := hd d hm; omega
  unfold AtomData.write
  refine .bind (.emit _) fun _ => ?_
  dsimp only
  split
  · exact .bind (.emit _) fun _ => .wrAll _ hds
  · rename_i mean name hi
    have hl : a.len = 8 + (12 + (utf8Enc mean).length) + (12 + (utf8Enc name).length) + (a.data.map fun d => 16 + d.len).sum := by
      unfold AtomData.len
      rw [hi]
    exact .bind (.emit _) fun _ => .bind (.writeStrAtom fun h1 h2 => by have := h h1 h2; omega) fun _ =>
      .bind (.writeStrAtom fun h1 h2 => by have := h h1 h2; omega) fun _ => .wrAll _ hds

theorem WrTot.writeIlst {atoms : List AtomData} (h : e.checked = true → ¬ pn → ∀ a ∈ atoms, a.len < 2^32) : WrTot pn e (writeIlst atoms) :=
  .bind (.writeHead _) fun _ => .wrAll _ fun _ ha => .atom fun h1 h2 => h h1 h2 _ ha
theorem WrTot.writeHdlr (b) : WrTot pn e (writeHdlr b) := .bind (.writeHead _) fun _ => .emit _

theorem WrTot.wrOpt {α} {f : α → Wr Unit} (x : Option α) (h : ∀ a, x = some a → WrTot pn e (f a)) : WrTot pn e (wrOpt f x) := by
  cases x with
  | none => exact .pure
  | some a => exact h a rfl

theorem WrTot.writeMeta {m : MetaW} (h : ∀ a, m.ilst = some a → WrTot pn e (Mp4.writeIlst a)) : WrTot pn e (writeMeta m) :=
  .bind (.writeHead _) fun _ => .bind (WrTot.bind (.emit _) fun _ => .emit _) fun _ =>
    .bind (.wrOpt _ fun _ _ => .writeHdlr _) fun _ => .wrOpt _ h

/-- The item list in the atoms to insert is the given one. -/
def PlanIlst (atoms : List AtomData) (p : Plan) : Prop :=
  (∀ m, p.newMeta = some m → m.ilst = some atoms) ∧ ∀ m, p.newUdta = some (some m) → m.ilst = some atoms

theorem mkPlan_newIlst {moov atoms p} (h : mkPlan moov atoms e = .ok p) : PlanIlst atoms p := by
  obtain ⟨mb, tr, ud⟩ := moov
  match ud with
  | none =>
    simp only [mkPlan, Option.bind_none] at h
    obtain ⟨a1, h1, k1⟩ := E.bind_inv h
    obtain ⟨a2, h2, k2⟩ := E.bind_inv k1
    obtain ⟨a3, h3, k3⟩ := E.bind_inv k2
    obtain ⟨d, h5, k5⟩ := E.bind_inv k3
    obtain rfl := E.pure_inv k5
    exact ⟨by simp, by rintro m hm; simp only [Option.some.injEq] at hm; rw [← hm]⟩
  | some ⟨bu, none⟩ =>
    simp only [mkPlan, Option.bind_some] at h
    obtain ⟨a1, h1, k1⟩ := E.bind_inv h
    obtain ⟨a2, h2, k2⟩ := E.bind_inv k1
    obtain ⟨a3, h3, k3⟩ := E.bind_inv k2
    obtain ⟨d, h5, k5⟩ := E.bind_inv k3
    obtain rfl := E.pure_inv k5
    exact ⟨by rintro m hm; simp only [Option.some.injEq] at hm; rw [← hm], by simp⟩
  | some ⟨bu, some ⟨bm, hd, x⟩⟩ =>
    simp only [mkPlan, Option.bind_some] at h
    obtain ⟨a1, h1, k1⟩ := E.bind_inv h
    obtain ⟨a2, h2, k2⟩ := E.bind_inv k1
    obtain ⟨a3, h3, k3⟩ := E.bind_inv k2
    obtain ⟨d, h5, k5⟩ := E.bind_inv k3
    obtain rfl := E.pure_inv k5
    exact ⟨by simp, by simp⟩

theorem WrTot.newAtoms {p : Plan} {atoms : List AtomData} (hi : PlanIlst atoms p) (h : WrTot pn e (Mp4.writeIlst atoms)) :
    WrTot pn e (newAtomsWr p atoms) := by
  unfold newAtomsWr
  split
  · rename_i a ha
    refine .bind (.writeHead _) fun _ => .wrOpt _ fun m hm => .writeMeta fun l hl => ?_
    subst hm
    have := hi.2 m ha
    rw [hl] at this
    cases this
    exact h
  · rename_i a _ ha
    refine .writeMeta fun l hl => ?_
    have := hi.1 _ ha
    rw [hl] at this
    cases this
    exact h
  · exact .bind (.wrOpt _ fun _ _ => .writeHdlr _) fun _ => h

theorem WTot.wEmit {m} (h : WrTot pn e m) : WTot pn e (wEmit m) fun _ => True := by
  intro s
  unfold Mp4.wEmit
  have := WTot.wAll (pn := pn) (e := e) (f := Mp4.wWriteAll) (m e).1 (fun _ _ => .wWriteAll _) s
  dsimp only
  unfold WrTot at h
  generalize hx : m e = x at *
  obtain ⟨c, o⟩ := x
  dsimp only at *
  cases hw : Mp4.wAll Mp4.wWriteAll c e s with
  | mk o' s' =>
    rw [hw] at this
    cases o' with
    | ok a =>
      cases o with
      | ok a => trivial
      | panic => exact h rfl
      | err k => trivial
      | fuel => trivial
    | err k => trivial
    | panic => exact this
    | fuel => trivial

/-- What a build with overflow checks insists on. -/
structure Moderate (F : Bytes) (atoms : List AtomData) : Prop where
  len : F.length < 2^61
  ins : insertBound atoms < 2^61
  small : ∀ a ∈ atoms, a.len < 2^32
  co64 : NoCo64 F

theorem writePhase_tot {F : Bytes} {mdatPos : Nat} {moov : MoovBounds} {atoms : List AtomData} {p : Plan} {moved : Bytes}
    (hs : SaneB e F) (hc : ¬ pn → Contained F) (hmod : e.checked = true → ¬ pn → Moderate F atoms) (hf : FoundMoovB F moov)
    (hp : PlanAt F p) (hi : PlanIlst atoms p) (hok : e.checked = true → ¬ pn → PlanOk F atoms p) :
    WTot pn e (writePhase mdatPos moov p F.length moved atoms) fun _ => True := by
  have hd : e.checked = true → ¬ pn → -2^61 ≤ p.lenDiff ∧ p.lenDiff < 2^62 := fun h1 h2 => by
    obtain ⟨k1, k2, k3, k4, k5⟩ := hok h1 h2
    obtain ⟨m1, m2, -, -⟩ := hmod h1 h2
    constructor <;> omega
  have hF := hs.fit.len
  have hadd : ∀ n : Nat, (¬ pn → n ≤ F.length) → e.checked = true → ¬ pn →
      -2^63 ≤ asI64 n + p.lenDiff ∧ asI64 n + p.lenDiff < 2^63 := fun n hn h1 h2 => by
    have := hn h2
    have := hd h1 h2
    have := (hmod h1 h2).len
    have := asI64_small (n := n) (by omega)
    omega
  have hmv : ¬ pn → p.movedDataStart ≤ F.length := fun h => by
    obtain ⟨fc, hfc, b, hb, he⟩ := hp.1
    rw [he]
    exact contained_end (hc h) hfc hb
  have hrest : WTot pn e (do
      Mp4.wAll (Mp4.patchHead p.lenDiff) p.updateAtoms.reverse
      let n ← (addI (asI64 F.length) p.lenDiff).w
      Mp4.wSetLen (asU64 n)
      Mp4.wSeekStart p.newAtomsStart
      Mp4.wEmit (newAtomsWr p atoms)
      let m ← (addI (asI64 p.movedDataStart) p.lenDiff).w
      Mp4.wSeekStart (asU64 m)
      Mp4.wWriteAll moved
      Mp4.wFlush) fun _ => True := by
    refine .bind (.wAll _ fun a ha => patchHead_tot (hadd _ fun h => ?_)) fun _ _ => ?_
    · obtain ⟨fc, hfc, hb⟩ := hp.2 a (List.mem_reverse.mp ha)
      have := contained_end (hc h) hfc hb
      omega
    refine .bind (.ofE (.addI (Q := fun _ => True) (hadd _ fun _ => Nat.le_refl _) fun _ => trivial)) fun n _ => ?_
    refine .bind (.wSetLen _) fun _ _ => .bind (.wSeekStart _) fun _ _ => .bind (.wEmit (.newAtoms hi (.writeIlst fun h1 h2 => (hmod h1 h2).small)))
      fun _ _ => ?_
    refine .bind (.ofE (.addI (Q := fun _ => True) (hadd _ hmv) fun _ => trivial)) fun m _ => ?_
    exact .bind (.wSeekStart _) fun _ _ => .bind (.wWriteAll _) fun _ _ => .wFlush
  unfold writePhase
  split
  · refine .bind (.wAll _ fun st hst => ?_) fun _ _ => hrest
    have hfs : FoundStbl F st := by
      unfold stblAtoms at hst
      obtain ⟨t, ht, hx⟩ := List.mem_filterMap.mp hst
      have := hf.2.2 t ht
      match t, this, hx with
      | some (some (some x)), this, hx =>
        simp only [Option.bind_some, id, Option.some.injEq] at hx
        rw [← hx]; exact this
    refine .bind (.wOpt _ fun a ha => ?_) fun _ _ => .wOpt _ fun a ha => ?_
    · have hb := hfs.1
      rw [ha] at hb
      refine patchTable_tot hs hb fun h1 h2 c hc' => ?_
      have := hd h1 h2
      have h256 : (256 : Nat) ^ 4 = 2^32 := by decide
      have := asI64_small (n := c) (by omega)
      omega
    · have hb := hfs.2
      rw [ha] at hb
      refine patchTable_tot hs hb fun h1 h2 => ?_
      exact absurd hb.headIn ((hmod h1 h2).co64 _ _ _)
  · exact hrest

theorem writeTagTo_tot {F : Bytes} {atoms : List AtomData} (hs : SaneB e F) (hc : ¬ pn → Contained F)
    (hmod : e.checked = true → ¬ pn → Moderate F atoms) (pos : Nat) (h : (writeTagTo e F pos atoms).1 = .panic) : pn := by
  have hp := preparePhase_tot (atoms := atoms) hs hc (fun h1 h2 => by have := (hmod h1 h2).ins; omega) pos
  unfold Tot at hp
  unfold writeTagTo at h
  cases hx : preparePhase atoms e F pos with
  | ok y =>
    obtain ⟨⟨mp, moov, p, ol, moved⟩, q⟩ := y
    rw [hx] at hp h
    dsimp only at hp h
    obtain ⟨⟨r, h1⟩, h2, h3, h4, h5⟩ := preparePhase_inv hx hs.max
    subst h3
    have := writePhase_tot (mdatPos := mp) (moved := moved) hs hc hmod hp.1 hp.2 (mkPlan_newIlst h2) (fun k1 k2 =>
      mkPlan_ok h2 (findTop_found h1).1 (by have := (hmod k1 k2).len; omega) (by have := (hmod k1 k2).ins; omega) h4)
      { file := F, cur := e.rcur 0 }
    rw [h] at this
    exact this
  | err k => rw [hx] at h; simp at h
  | panic => rw [hx] at hp; exact hp
  | fuel => rw [hx] at h; simp at h

end

end Mp4
