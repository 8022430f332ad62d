import Verif.Proof.Writer
import Verif.Proof.Total
/-
When the writing phase cannot fail, for arbitrary input: whatever the search phase returns are positions of heads
that have been read.
-/
namespace Mp4

/-! ### Heads that have been read -/

/-- There is a head at this position of the file. -/
def HeadAt (F : Bytes) (b : AtomBounds) (fc : Fourcc) : Prop :=
  b.pos + b.size.headLen ≤ F.length ∧ b.size.len < 2^64 ∧ (F.drop (b.pos + 4)).take 4 = fc.bytes

theorem readExact_inv {n e F p b q} (h : readExact n e F p = .ok (b, q)) :
    b = (F.drop p).take n ∧ q = p + n ∧ (n = 0 ∨ q ≤ F.length) := by
  unfold readExact at h
  split at h
  · simp only [Out.ok.injEq, Prod.mk.injEq] at h
    obtain ⟨rfl, rfl⟩ := h
    exact ⟨rfl, rfl, by assumption⟩
  · simp at h

theorem beNat_lt_pow (b : Bytes) : beNat b < 256 ^ b.length := by
  have key : ∀ (b : Bytes) (a : Nat), b.foldl (fun a x => a * 256 + x.toNat) a < (a + 1) * 256 ^ b.length := by
    intro b
    induction b with
    | nil => intro a; simp
    | cons x b ih =>
      intro a
      rw [List.foldl_cons, List.length_cons]
      refine Nat.lt_of_lt_of_le (ih _) ?_
      rw [Nat.pow_succ, Nat.mul_comm (256 ^ b.length), ← Nat.mul_assoc]
      refine Nat.mul_le_mul_right _ ?_
      have := x.toNat_lt
      omega
  have := key b 0
  rw [Nat.zero_add, Nat.one_mul] at this
  exact this

theorem four_bytes {b : Bytes} (h : b.length = 4) : (⟨b.getD 0 0, b.getD 1 0, b.getD 2 0, b.getD 3 0⟩ : Fourcc).bytes = b := by
  match b, h with
  | [_, _, _, _], _ => rfl

theorem parseHead_inv {e F p h q} (hh : parseHead e F p = .ok (h, q)) :
    q = p + h.size.headLen ∧ HeadAt F ⟨p, h.size⟩ h.fourcc := by
  unfold parseHead at hh
  obtain ⟨len, q1, h1, hh1⟩ := P.bind_inv hh
  obtain ⟨b, q2, h2, hh2⟩ := P.bind_inv hh1
  unfold readU32 at h1
  obtain ⟨b1, q1', h1a, h1b⟩ := P.bind_inv h1
  obtain ⟨rfl, rfl⟩ := P.pure_inv h1b
  clear hh hh1 h1 h1b
  obtain ⟨rfl, rfl, -⟩ := readExact_inv h1a
  obtain ⟨rfl, rfl, hl⟩ := readExact_inv h2
  have hl : p + 4 + 4 ≤ F.length := by rcases hl with hl | hl; · simp at hl
                                       · exact hl
  have hlen : ((F.drop (p + 4)).take 4).length = 4 := by rw [List.length_take, List.length_drop]; omega
  have hlen0 : ((F.drop p).take 4).length = 4 := by rw [List.length_take, List.length_drop]; omega
  dsimp only at hh2
  rw [P.if_apply] at hh2
  split at hh2
  · obtain ⟨l, q3, h3, hh3⟩ := P.bind_inv hh2
    clear hh2
    obtain ⟨rfl, rfl⟩ := P.pure_inv hh3
    unfold readU64 at h3
    obtain ⟨b3, q3', h3a, h3b⟩ := P.bind_inv h3
    obtain ⟨rfl, rfl⟩ := P.pure_inv h3b
    clear h3
    obtain ⟨rfl, rfl, hl3⟩ := readExact_inv h3a
    have hl3 : p + 4 + 4 + 8 ≤ F.length := by rcases hl3 with hl | hl; · simp at hl
                                              · exact hl
    refine ⟨rfl, by show p + 16 ≤ _; omega, ?_, (four_bytes hlen).symm⟩
    have := beNat_lt_pow ((F.drop (p + 4 + 4)).take 8)
    rw [show ((F.drop (p + 4 + 4)).take 8).length = 8 by rw [List.length_take, List.length_drop]; omega] at this
    exact this
  · rw [P.if_apply] at hh2
    split at hh2
    · exact absurd hh2 P.fail_inv
    · obtain ⟨rfl, rfl⟩ := P.pure_inv hh2
      refine ⟨rfl, by show p + 8 ≤ _; omega, ?_, (four_bytes hlen).symm⟩
      have := beNat_lt_pow ((F.drop p).take 4)
      rw [hlen0] at this
      show beNat _ < _
      omega

/-- As `walk_inv`; the head has been read. -/
theorem walk_inv_at {σ} {limit : E Nat} {handle : σ → Head → P σ} (I : σ → Prop) {e F}
    (hh : ∀ s h p s' p', I s → HeadAt F ⟨p, h.size⟩ h.fourcc → handle s h e F (p + h.size.headLen) = .ok (s', p') → I s') :
    ∀ f s parsed p s' p', I s → walk limit handle f s parsed e F p = .ok (s', p') → I s'
  | 0, s, parsed, p, s', p', _, h => by simp [walk, outOfFuel] at h
  | f+1, s, parsed, p, s', p', hs, h => by
    rw [walk] at h
    obtain ⟨lim, q, hl, ha⟩ := P.bind_inv h
    rw [P.if_apply] at ha
    split at ha
    · obtain ⟨hd, q1, hp, hb⟩ := P.bind_inv ha
      obtain ⟨s1, q2, h1, hc⟩ := P.bind_inv hb
      obtain ⟨n, q3, _, hd'⟩ := P.bind_inv hc
      obtain ⟨hq, hat⟩ := parseHead_inv hp
      rw [hq] at h1
      exact walk_inv_at I hh f s1 n q3 s' p' (hh _ _ _ _ _ hs hat h1) hd'
    · obtain ⟨hx, -⟩ := P.pure_inv ha
      rw [← hx]
      exact hs

theorem loop_inv_at {σ} {limit : E Nat} {handle : σ → Head → P σ} (I : σ → Prop) {e F}
    (hh : ∀ s h p s' p', I s → HeadAt F ⟨p, h.size⟩ h.fourcc → handle s h e F (p + h.size.headLen) = .ok (s', p') → I s')
    {s parsed p s' p'} (hs : I s) (h : loop limit handle s parsed e F p = .ok (s', p')) : I s' := by
  rw [loop] at h
  obtain ⟨f, q, _, h⟩ := P.bind_inv h
  exact walk_inv_at I hh _ _ _ _ _ _ hs h

theorem findBounds_inv {s : Size} {e F p b q} (h : findBounds s e F (p + s.headLen) = .ok (b, q)) : b = ⟨p, s⟩ ∧ q = p + s.headLen := by
  unfold findBounds at h
  obtain ⟨c, q1, h1, ha⟩ := P.bind_inv h
  obtain ⟨n, q2, h2, hb⟩ := P.bind_inv ha
  clear h ha
  obtain ⟨rfl, rfl⟩ := P.pure_inv hb
  simp only [tellP, Out.ok.injEq, Prod.mk.injEq] at h1
  obtain ⟨rfl, rfl⟩ := h1
  obtain ⟨h3, rfl⟩ := E.p_inv h2
  unfold subU at h3
  rw [if_pos (by omega)] at h3
  simp only [Out.ok.injEq] at h3
  rw [← h3, Nat.add_sub_cancel]
  exact ⟨rfl, rfl⟩

theorem findLeaf_inv {s : Size} {e F p b q} (h : findLeaf s e F (p + s.headLen) = .ok (b, q)) : b = ⟨p, s⟩ := by
  unfold findLeaf at h
  replace h := P.bind_inv h; obtain ⟨b', q1, h1, h⟩ := h
  replace h := P.bind_inv h; obtain ⟨_, q2, h2, h⟩ := h
  obtain ⟨rfl, rfl⟩ := P.pure_inv h
  exact (findBounds_inv h1).1

/-! ### What has been found -/

def optAll {α} (P : α → Prop) : Option α → Prop
  | some a => P a
  | none => True

def FoundMeta (F : Bytes) (m : MetaBounds) : Prop :=
  HeadAt F m.bounds METADATA ∧ optAll (HeadAt F · ITEM_LIST) m.ilst
def FoundUdta (F : Bytes) (u : UdtaBounds) : Prop := HeadAt F u.bounds USER_DATA ∧ optAll (FoundMeta F) u.meta?
def FoundMoov (F : Bytes) (m : MoovBounds) : Prop := HeadAt F m.bounds MOVIE ∧ optAll (FoundUdta F) m.udta

theorem findMeta_found {s : Size} {e F p b q} (hh : HeadAt F ⟨p, s⟩ METADATA) (h : findMeta s e F (p + s.headLen) = .ok (b, q)) : FoundMeta F b := by
  unfold findMeta at h
  replace h := P.bind_inv h; obtain ⟨b0, q1, h1, h⟩ := h
  obtain ⟨rfl, rfl⟩ := findBounds_inv h1
  replace h := P.bind_inv h; obtain ⟨⟨v, fl⟩, q2, h2, h⟩ := h
  dsimp only at h
  rw [P.if_apply] at h
  split at h
  · exact absurd h P.fail_inv
  refine loop_inv_at (FoundMeta F) ?_ (s := { bounds := ⟨p, s⟩ }) ⟨hh, trivial⟩ h
  intro st hd p0 st' p' hs hat hr
  rw [P.if_apply] at hr
  split at hr
  · replace hr := P.bind_inv hr; obtain ⟨a, q3, h3, hr⟩ := hr
    obtain ⟨rfl, rfl⟩ := P.pure_inv hr
    exact hs
  · rw [P.if_apply] at hr
    split at hr
    · replace hr := P.bind_inv hr; obtain ⟨a, q3, h3, hr⟩ := hr
      obtain ⟨rfl, rfl⟩ := P.pure_inv hr
      rename_i _ hfc
      rw [findLeaf_inv h3]
      exact ⟨hs.1, by rw [hfc] at hat; exact hat⟩
    · replace hr := P.bind_inv hr; obtain ⟨a, q3, h3, hr⟩ := hr
      obtain ⟨rfl, rfl⟩ := P.pure_inv hr
      exact hs

theorem findUdta_found {s : Size} {e F p b q} (hh : HeadAt F ⟨p, s⟩ USER_DATA) (h : findUdta s e F (p + s.headLen) = .ok (b, q)) : FoundUdta F b := by
  unfold findUdta at h
  replace h := P.bind_inv h; obtain ⟨b0, q1, h1, h⟩ := h
  obtain ⟨rfl, rfl⟩ := findBounds_inv h1
  refine loop_inv_at (FoundUdta F) ?_ (s := { bounds := ⟨p, s⟩ }) ⟨hh, trivial⟩ h
  intro st hd p0 st' p' hs hat hr
  rw [P.if_apply] at hr
  split at hr
  · replace hr := P.bind_inv hr; obtain ⟨a, q3, h3, hr⟩ := hr
    obtain ⟨rfl, rfl⟩ := P.pure_inv hr
    rename_i hfc
    rw [hfc] at hat
    exact ⟨hs.1, findMeta_found hat h3⟩
  · replace hr := P.bind_inv hr; obtain ⟨a, q3, h3, hr⟩ := hr
    obtain ⟨rfl, rfl⟩ := P.pure_inv hr
    exact hs

theorem findMoov_found {s : Size} {e F p b q} (hh : HeadAt F ⟨p, s⟩ MOVIE) (h : findMoov s e F (p + s.headLen) = .ok (b, q)) : FoundMoov F b := by
  unfold findMoov at h
  replace h := P.bind_inv h; obtain ⟨b0, q1, h1, h⟩ := h
  obtain ⟨rfl, rfl⟩ := findBounds_inv h1
  refine loop_inv_at (FoundMoov F) ?_ (s := { bounds := ⟨p, s⟩ }) ⟨hh, trivial⟩ h
  intro st hd p0 st' p' hs hat hr
  rw [P.if_apply] at hr
  split at hr
  · replace hr := P.bind_inv hr; obtain ⟨a, q3, h3, hr⟩ := hr
    obtain ⟨rfl, rfl⟩ := P.pure_inv hr
    exact hs
  · rw [P.if_apply] at hr
    split at hr
    · replace hr := P.bind_inv hr; obtain ⟨a, q3, h3, hr⟩ := hr
      obtain ⟨rfl, rfl⟩ := P.pure_inv hr
      rename_i _ hfc
      rw [hfc] at hat
      exact ⟨hs.1, findUdta_found hat h3⟩
    · replace hr := P.bind_inv hr; obtain ⟨a, q3, h3, hr⟩ := hr
      obtain ⟨rfl, rfl⟩ := P.pure_inv hr
      exact hs

theorem findTop_found {e F p mp m q} (h : findTop e F p = .ok ((mp, m), q)) :
    FoundMoov F m ∧ (mp = 0 ∨ (F.drop (mp + 4)).take 4 = MEDIA_DATA.bytes ∧ mp + 8 ≤ F.length) := by
  unfold findTop at h
  replace h := P.bind_inv h; obtain ⟨_, q1, h1, h⟩ := h
  replace h := P.bind_inv h; obtain ⟨len, q2, h2, h⟩ := h
  replace h := P.bind_inv h; obtain ⟨t, q3, h3, h⟩ := h
  have ht := loop_inv_at (fun t : TopBounds => optAll (FoundMoov F) t.moov ∧ optAll (HeadAt F · MEDIA_DATA) t.mdat) (by
    intro st hd p0 st' p' hs hat hr
    rw [P.if_apply] at hr
    split at hr
    · replace hr := P.bind_inv hr; obtain ⟨a, q3, h3, hr⟩ := hr
      obtain ⟨rfl, rfl⟩ := P.pure_inv hr
      rename_i hfc
      rw [hfc] at hat
      exact ⟨findMoov_found hat h3, hs.2⟩
    · rw [P.if_apply] at hr
      split at hr
      · replace hr := P.bind_inv hr; obtain ⟨a, q3, h3, hr⟩ := hr
        obtain ⟨rfl, rfl⟩ := P.pure_inv hr
        rename_i _ hfc
        rw [hfc] at hat
        rw [findLeaf_inv h3]
        exact ⟨hs.1, hat⟩
      · replace hr := P.bind_inv hr; obtain ⟨a, q3, h3, hr⟩ := hr
        obtain ⟨rfl, rfl⟩ := P.pure_inv hr
        exact hs) (s := {}) ⟨trivial, trivial⟩ h3
  cases hm : t.moov with
  | none => rw [hm] at h; exact absurd h P.fail_inv
  | some m' =>
    rw [hm] at h ht
    obtain ⟨h, rfl⟩ := P.pure_inv h
    simp only [Prod.mk.injEq] at h
    obtain ⟨rfl, rfl⟩ := h
    refine ⟨ht.1, ?_⟩
    cases hd : t.mdat with
    | none => exact .inl rfl
    | some b =>
      rw [hd] at ht
      refine .inr ⟨ht.2.2.2, ?_⟩
      have := ht.2.1
      have : 8 ≤ b.size.headLen := by unfold Size.headLen; split <;> omega
      show b.pos + 8 ≤ _
      omega

/-! ### The plan -/

theorem E.bind_inv {α β} {m : E α} {f : α → E β} {e x} (h : (m >>= f) e = .ok x) : ∃ a, m e = .ok a ∧ f a e = .ok x := by
  have h : (m e).bind (fun a => f a e) = .ok x := h
  cases hm : m e with
  | ok a => rw [hm] at h; exact ⟨a, rfl, h⟩
  | _ => rw [hm] at h; simp [Out.bind] at h

theorem E.pure_inv {α} {a b : α} {e} (h : (pure a : E α) e = .ok b) : a = b := by
  have h : (.ok a : Out α) = .ok b := h
  simpa using h

theorem addU_inv {a b e n} (h : addU a b e = .ok n) : n = (a + b) % 2^64 := by
  unfold addU at h
  split at h
  · rw [Nat.mod_eq_of_lt (by assumption)]; simpa using h.symm
  · split at h <;> simp at h
    exact h.symm

theorem addI_small {a b : Int} {e n} (h : addI a b e = .ok n) (h1 : -2^63 ≤ a + b) (h2 : a + b < 2^63) : n = a + b := by
  unfold addI at h
  rw [if_pos ⟨h1, h2⟩] at h
  simpa using h.symm

theorem subI_small {a b : Int} {e n} (h : subI a b e = .ok n) (h1 : -2^63 ≤ a - b) (h2 : a - b < 2^63) : n = a - b := by
  unfold subI at h
  rw [if_pos ⟨h1, h2⟩] at h
  simpa using h.symm

theorem asI64_wrap {p len n : Nat} (hl : len < 2^64) (hn : n = (p + len) % 2^64) (h1 : p < 2^62) (h2 : n < 2^62) :
    asI64 len = (n : Int) - p := by
  unfold asI64
  split <;> omega

/-- An upper bound for the size of the atoms that are inserted. -/
def insertBound (atoms : List AtomData) : Nat := (atoms.map AtomData.len).sum + 100

theorem ofContent_len (n : Nat) : n + 8 ≤ (Size.ofContent n).len ∧ (Size.ofContent n).len ≤ n + 16 := by
  unfold Size.ofContent
  dsimp only
  split <;> constructor <;> simp only <;> omega

theorem insert_le (atoms : List AtomData) (hd : Option Bytes) (hhd : hd = some metaHdlr ∨ hd = none) :
    lenOrZero hdlrSize hd + (ilstSize atoms).len ≤ insertBound atoms ∧
    (MetaW.size ⟨hd, some atoms⟩).len ≤ insertBound atoms ∧ (udtaSize (some ⟨hd, some atoms⟩)).len ≤ insertBound atoms := by
  have h1 := ofContent_len (atoms.map AtomData.len).sum
  have h2 : lenOrZero hdlrSize hd ≤ 33 := by rcases hhd with rfl | rfl <;> decide
  have h3 := ofContent_len (lenOrZero hdlrSize hd + (ilstSize atoms).len + 4)
  have h4 := ofContent_len (MetaW.size ⟨hd, some atoms⟩).len
  have e1 : (ilstSize atoms).len = (Size.ofContent (atoms.map AtomData.len).sum).len := rfl
  have e2 : (MetaW.size ⟨hd, some atoms⟩).len = (Size.ofContent (lenOrZero hdlrSize hd + (ilstSize atoms).len + 4)).len := rfl
  have e3 : (udtaSize (some ⟨hd, some atoms⟩)).len = (Size.ofContent (MetaW.size ⟨hd, some atoms⟩).len).len := rfl
  unfold insertBound
  omega

/-- What is known of a plan for a file of length `L`. -/
structure PlanOk (F : Bytes) (atoms : List AtomData) (p : Plan) : Prop where
  start : p.newAtomsStart ≤ F.length
  low : (p.movedDataStart : Int) - F.length ≤ p.movedDataStart + p.lenDiff
  pos : 0 ≤ p.movedDataStart + p.lenDiff
  high : p.movedDataStart + p.lenDiff ≤ F.length + insertBound atoms
  upd : ∀ a ∈ p.updateAtoms, a.pos + 8 ≤ F.length

theorem HeadAt.pos8 {F b fc} (h : HeadAt F b fc) : b.pos + 8 ≤ F.length := by
  have h1 := h.1
  have : 8 ≤ b.size.headLen := by unfold Size.headLen; split <;> omega
  omega

theorem mkPlan_ok {F : Bytes} {moov : MoovBounds} {atoms e p} (h : mkPlan moov atoms e = .ok p) (hf : FoundMoov F moov)
    (hL : F.length < 2^62) (hB : insertBound atoms < 2^62) (hm : p.movedDataStart ≤ F.length) : PlanOk F atoms p := by
  obtain ⟨mb, tr, ud⟩ := moov
  have he : ∀ {b : AtomBounds} {n}, b.end_ e = .ok n → n = (b.pos + b.size.len) % 2^64 := fun h => addU_inv h
  match ud, hf with
  | none, hf =>
    simp only [mkPlan, Option.bind_none] at h
    obtain ⟨a1, h1, k1⟩ := E.bind_inv h
    obtain rfl := E.pure_inv h1
    obtain ⟨a2, h2, k2⟩ := E.bind_inv k1
    obtain rfl := E.pure_inv h2
    obtain ⟨a3, h3, k3⟩ := E.bind_inv k2
    obtain ⟨n, h4, k4⟩ := E.bind_inv h3
    obtain rfl := E.pure_inv k4
    obtain ⟨d, h5, k5⟩ := E.bind_inv k3
    obtain rfl := E.pure_inv k5
    have hins := insert_le atoms (some metaHdlr) (.inl rfl)
    have hlt : (udtaSize (some ⟨some metaHdlr, some atoms⟩)).len < 2^62 := by omega
    have hd : d = 0 + asI64 (udtaSize (some ⟨some metaHdlr, some atoms⟩)).len := by
      have := asI64_small (Nat.lt_trans hlt (by decide))
      exact addI_small h5 (by omega) (by omega)
    rw [asI64_small (Nat.lt_trans hlt (by decide))] at hd
    dsimp only at hm ⊢
    refine ⟨hm, ?_, ?_, ?_, ?_⟩ <;> dsimp only
    · omega
    · omega
    · omega
    · intro a ha
      simp only [List.nil_append, List.mem_singleton] at ha
      rw [ha]
      exact hf.1.pos8
  | some ⟨bu, none⟩, hf =>
    simp only [mkPlan, Option.bind_some] at h
    obtain ⟨a1, h1, k1⟩ := E.bind_inv h
    obtain rfl := E.pure_inv h1
    obtain ⟨a2, h2, k2⟩ := E.bind_inv k1
    obtain rfl := E.pure_inv h2
    obtain ⟨a3, h3, k3⟩ := E.bind_inv k2
    obtain ⟨n, h4, k4⟩ := E.bind_inv h3
    obtain rfl := E.pure_inv k4
    obtain ⟨d, h5, k5⟩ := E.bind_inv k3
    obtain rfl := E.pure_inv k5
    have hins := insert_le atoms (some metaHdlr) (.inl rfl)
    have hlt : (MetaW.size ⟨some metaHdlr, some atoms⟩).len < 2^62 := by omega
    have hd : d = 0 + asI64 (MetaW.size ⟨some metaHdlr, some atoms⟩).len := by
      have := asI64_small (Nat.lt_trans hlt (by decide))
      exact addI_small h5 (by omega) (by omega)
    rw [asI64_small (Nat.lt_trans hlt (by decide))] at hd
    dsimp only at hm ⊢
    refine ⟨hm, ?_, ?_, ?_, ?_⟩ <;> dsimp only
    · omega
    · omega
    · omega
    · intro a ha
      simp only [List.nil_append, List.mem_append, List.mem_singleton] at ha
      rcases ha with ha | ha
      · rw [ha]; exact hf.2.1.pos8
      · rw [ha]; exact hf.1.pos8
  | some ⟨bu, some ⟨bm, hd, none⟩⟩, hf =>
    simp only [mkPlan, Option.bind_some] at h
    obtain ⟨a1, h1, k1⟩ := E.bind_inv h
    obtain rfl := E.pure_inv h1
    obtain ⟨a2, h2, k2⟩ := E.bind_inv k1
    obtain ⟨n, h4, k4⟩ := E.bind_inv h2
    obtain rfl := E.pure_inv k4
    obtain ⟨a3, h3, k3⟩ := E.bind_inv k2
    obtain rfl := E.pure_inv h3
    obtain ⟨d, h5, k5⟩ := E.bind_inv k3
    obtain rfl := E.pure_inv k5
    have hins := insert_le atoms (if hd.isNone then some metaHdlr else none) (by split <;> simp)
    have hlt : lenOrZero hdlrSize (if hd.isNone then some metaHdlr else none) + (ilstSize atoms).len < 2^62 := by omega
    have hd : d = 0 + asI64 (lenOrZero hdlrSize (if hd.isNone then some metaHdlr else none) + (ilstSize atoms).len) := by
      have := asI64_small (Nat.lt_trans hlt (by decide))
      exact addI_small h5 (by omega) (by omega)
    rw [asI64_small (Nat.lt_trans hlt (by decide))] at hd
    dsimp only at hm ⊢
    refine ⟨hm, ?_, ?_, ?_, ?_⟩ <;> dsimp only
    · omega
    · omega
    · omega
    · intro a ha
      simp only [List.mem_append, List.mem_singleton] at ha
      rcases ha with (ha | ha) | ha
      · rw [ha]; exact hf.2.2.1.pos8
      · rw [ha]; exact hf.2.1.pos8
      · rw [ha]; exact hf.1.pos8
  | some ⟨bu, some ⟨bm, hd, some bi⟩⟩, hf =>
    simp only [mkPlan, Option.bind_some] at h
    obtain ⟨a1, h1, k1⟩ := E.bind_inv h
    obtain ⟨n, h4, k4⟩ := E.bind_inv h1
    obtain ⟨d0, h4', k4'⟩ := E.bind_inv k4
    obtain rfl := E.pure_inv k4'
    obtain ⟨a2, h2, k2⟩ := E.bind_inv k1
    obtain rfl := E.pure_inv h2
    obtain ⟨a3, h3, k3⟩ := E.bind_inv k2
    obtain rfl := E.pure_inv h3
    obtain ⟨d, h5, k5⟩ := E.bind_inv k3
    obtain rfl := E.pure_inv k5
    have hins := insert_le atoms (if hd.isNone then some metaHdlr else none) (by split <;> simp)
    have hlt : lenOrZero hdlrSize (if hd.isNone then some metaHdlr else none) + (ilstSize atoms).len < 2^62 := by omega
    have hbi := hf.2.2.2
    have hp8 := HeadAt.pos8 hbi
    dsimp only at hm ⊢
    have hw := asI64_wrap hbi.2.1 (he h4) (by omega) (by omega)
    have hd0 : d0 = 0 - asI64 bi.size.len := subI_small h4' (by omega) (by omega)
    have hs := asI64_small (Nat.lt_trans hlt (by decide))
    have hd : d = d0 + asI64 (lenOrZero hdlrSize (if hd.isNone then some metaHdlr else none) + (ilstSize atoms).len) :=
      addI_small h5 (by omega) (by omega)
    rw [hs] at hd
    refine ⟨?_, ?_, ?_, ?_, ?_⟩ <;> dsimp only
    · omega
    · omega
    · omega
    · omega
    · intro a ha
      simp only [List.mem_append, List.mem_singleton] at ha
      rcases ha with (ha | ha) | ha
      · rw [ha]; exact hf.2.2.1.pos8
      · rw [ha]; exact hf.2.1.pos8
      · rw [ha]; exact hf.1.pos8

/-! ### The writing phase -/

/-- Succeeds, or panics in a build with overflow checks. -/
def Runs {α} (e : Env) (I : WSt → Prop) (m : W α) (J : WSt → Prop) : Prop :=
  ∀ s, I s → (∃ a s', m e s = (.ok a, s') ∧ J s') ∨ ((m e s).1 = .panic ∧ e.checked = true)

theorem Runs.bind {α β e I J K} {m : W α} {f : α → W β} (h1 : Runs e I m J) (h2 : ∀ a, Runs e J (f a) K) : Runs e I (m >>= f) K := by
  intro s hs
  rcases h1 s hs with ⟨a, s', h, hj⟩ | ⟨h, hc⟩
  · rw [W.bind_ok h]; exact h2 a s' hj
  · refine .inr ⟨?_, hc⟩
    rw [W.bind_apply]
    cases hr : m e s with
    | mk o s' => rw [hr] at h; simp only at h; subst h; rfl

def anyState : WSt → Prop := fun _ => True

theorem Runs.weaken {α e I J} {m : W α} (h : Runs e I m J) : Runs e I m anyState := fun s hs =>
  (h s hs).imp (fun ⟨a, s', h, _⟩ => ⟨a, s', h, trivial⟩) id

theorem Runs.pure {α e I} (a : α) : Runs e I (pure a : W α) I := fun s hs => .inl ⟨a, s, rfl, hs⟩

/-- An arithmetic step. -/
theorem Runs.E {α e I} {m : E α} (h : (∃ a, m e = .ok a) ∨ (m e = .panic ∧ e.checked = true)) : Runs e I m.w I := fun s hs => by
  rcases h with ⟨a, h⟩ | ⟨h, hc⟩
  · exact .inl ⟨a, s, E.w_ok h s, hs⟩
  · exact .inr ⟨h, hc⟩

theorem addI_or (a b : Int) (e : Env) : (∃ n, addI a b e = .ok n) ∨ (addI a b e = .panic ∧ e.checked = true) := by
  unfold addI
  split
  · exact .inl ⟨_, rfl⟩
  · split
    · exact .inr ⟨rfl, by assumption⟩
    · exact .inl ⟨_, rfl⟩

theorem addU32_or (a b : Nat) (e : Env) : (∃ n, addU32 a b e = .ok n) ∨ (addU32 a b e = .panic ∧ e.checked = true) := by
  unfold addU32
  split
  · exact .inl ⟨_, rfl⟩
  · split
    · exact .inr ⟨rfl, by assumption⟩
    · exact .inl ⟨_, rfl⟩

/-- The position of the next byte to be written. -/
def nextAt (c : Nat) (s : WSt) : Prop := s.cur + s.buf.length = c

theorem wSeekStart_runs {e I n} (h : n ≤ e.maxPos) : Runs e I (wSeekStart n) (nextAt n) := fun s _ => by
  refine .inl ⟨(), { s.flushBuf with cur := n }, ?_, ?_⟩
  · rw [wSeekStart, if_pos h]
  · show n + 0 = n; omega

theorem wSeekCur_runs {e c n} (h : c + n ≤ e.maxPos) : Runs e (nextAt c) (wSeekCur n) (nextAt (c + n)) := fun s hs => by
  have hc : s.flushBuf.cur = c := by rw [flushBuf_cur]; exact hs
  refine .inl ⟨(), { s.flushBuf with cur := s.flushBuf.cur + n }, ?_, ?_⟩
  · rw [wSeekCur]; dsimp only; rw [if_pos (by rw [hc]; exact h)]
  · show s.flushBuf.cur + n + 0 = _; omega

theorem sysWrite_cur (s : WSt) (b : Bytes) : (s.sysWrite b).cur = s.cur + b.length := by
  unfold WSt.sysWrite
  cases b <;> simp

theorem sysWrite_buf (s : WSt) (b : Bytes) : (s.sysWrite b).buf = s.buf := by
  unfold WSt.sysWrite
  cases b <;> simp

theorem wWriteAll_runs {e c} (b : Bytes) : Runs e (nextAt c) (wWriteAll b) (nextAt (c + b.length)) := fun s hs => by
  have hs : s.cur + s.buf.length = c := hs
  unfold wWriteAll
  split
  · refine .inl ⟨(), _, rfl, ?_⟩
    show s.cur + (s.buf ++ b).length = _
    rw [List.length_append]; omega
  · dsimp only
    have key : ∃ s1, s1 = (if b.length > e.cap - s.buf.length then s.flushBuf else s) ∧ s1.cur + s1.buf.length = c := by
      refine ⟨_, rfl, ?_⟩
      split
      · rw [flushBuf_cur, flushBuf_buf]; exact hs
      · exact hs
    obtain ⟨s1, h1, h2⟩ := key
    rw [← h1]
    split
    · refine .inl ⟨(), _, rfl, ?_⟩
      show (s1.sysWrite b).cur + (s1.sysWrite b).buf.length = _
      rw [sysWrite_cur, sysWrite_buf]; omega
    · refine .inl ⟨(), _, rfl, ?_⟩
      show s1.cur + (s1.buf ++ b).length = _
      rw [List.length_append]; omega

theorem wWriteAll_runs' {e} (b : Bytes) : Runs e anyState (wWriteAll b) anyState := fun s _ =>
  (wWriteAll_runs (c := s.cur + s.buf.length) b).weaken s rfl

theorem wAll_runs {α e} {f : α → W Unit} (h : ∀ a, Runs e anyState (f a) anyState) : ∀ l, Runs e anyState (wAll f l) anyState
  | [] => Runs.pure ()
  | a :: l => Runs.bind (h a) fun _ => wAll_runs h l

theorem wAll_runs' {α e} {f : α → W Unit} : ∀ l : List α, (∀ a ∈ l, Runs e anyState (f a) anyState) → Runs e anyState (wAll f l) anyState
  | [], _ => Runs.pure ()
  | a :: l, h => Runs.bind (h a (by simp)) fun _ => wAll_runs' l fun x hx => h x (by simp [hx])

theorem patchHead_runs {e d} {a : AtomBounds} (h : a.pos + 8 ≤ e.maxPos) : Runs e anyState (patchHead d a) anyState := by
  unfold patchHead
  refine Runs.bind (Runs.E (addI_or _ _ _)) fun n => Runs.bind (wSeekStart_runs (n := a.pos) (by omega)) fun _ => ?_
  split
  · refine Runs.bind (wWriteAll_runs _) fun _ => Runs.bind (wSeekCur_runs ?_) fun _ => Runs.weaken (wWriteAll_runs _)
    rw [toBe_length]; exact h
  · exact Runs.weaken (wWriteAll_runs _)

/-- Emitting succeeds, or panics in a build with overflow checks. -/
def EmitsOr (e : Env) (m : Wr Unit) : Prop := (m e).2 = .ok () ∨ ((m e).2 = .panic ∧ e.checked = true)

theorem EmitsOr.bind {e} {m : Wr Unit} {f : Unit → Wr Unit} (h1 : EmitsOr e m) (h2 : ∀ a, EmitsOr e (f a)) : EmitsOr e (m >>= f) := by
  show EmitsOr e (Wr.bind m f)
  unfold EmitsOr Wr.bind
  rcases h1 with h | ⟨h, hc⟩
  · cases hm : m e with
    | mk c o => rw [hm] at h; simp only at h; subst h; exact h2 ()
  · cases hm : m e with
    | mk c o => rw [hm] at h; simp only at h; subst h; exact .inr ⟨rfl, hc⟩

theorem EmitsOr.bindE {e α} {m : E α} {f : α → Wr Unit} (h1 : (∃ a, m e = .ok a) ∨ (m e = .panic ∧ e.checked = true))
    (h2 : ∀ a, EmitsOr e (f a)) : EmitsOr e (m.wr >>= f) := by
  show EmitsOr e (Wr.bind m.wr f)
  unfold EmitsOr Wr.bind E.wr
  rcases h1 with ⟨a, h⟩ | ⟨h, hc⟩
  · rw [h]; exact h2 a
  · rw [h]; exact .inr ⟨rfl, hc⟩

theorem EmitsOr.emit {e} (b : Bytes) : EmitsOr e (emit b) := .inl rfl
theorem EmitsOr.pure {e} : EmitsOr e (Pure.pure ()) := .inl rfl
theorem EmitsOr.wrAll {e α} {f : α → Wr Unit} (h : ∀ a, EmitsOr e (f a)) : ∀ l, EmitsOr e (wrAll f l)
  | [] => .inl rfl
  | a :: l => EmitsOr.bind (h a) fun _ => EmitsOr.wrAll h l
theorem EmitsOr.wrOpt {e α} {f : α → Wr Unit} (h : ∀ a, EmitsOr e (f a)) : ∀ x, EmitsOr e (wrOpt f x)
  | none => .inl rfl
  | some a => h a
theorem EmitsOr.writeHead {e} (h : Head) : EmitsOr e (writeHead h) := by
  unfold Mp4.writeHead
  split
  · exact .bind (.emit _) fun _ => .bind (.emit _) fun _ => .emit _
  · exact .bind (.emit _) fun _ => .emit _
theorem EmitsOr.writeRaw {e} (d : Data) : EmitsOr e d.writeRaw := by
  cases d <;> first | exact .emit _ | exact .wrAll (fun _ => .emit _) _
theorem EmitsOr.writeDataAtom {e} (d : Data) : EmitsOr e (writeDataAtom d) :=
  .bindE (addU32_or _ _ _) fun _ => .bind (.emit _) fun _ => .bind (.emit _) fun _ =>
    .bind (.emit _) fun _ => .bind (.emit _) fun _ => .writeRaw d
theorem EmitsOr.writeStrAtom {e} (f : Fourcc) (s : Str) : EmitsOr e (writeStrAtom f s) :=
  .bindE (addU32_or _ _ _) fun _ => .bind (.emit _) fun _ => .bind (.emit _) fun _ => .bind (.emit _) fun _ => .emit _
theorem EmitsOr.atom {e} (a : AtomData) : EmitsOr e a.write := by
  unfold AtomData.write
  refine .bind (.emit _) fun _ => ?_
  dsimp only
  split
  · exact .bind (.emit _) fun _ => .wrAll .writeDataAtom _
  · exact .bind (.emit _) fun _ => .bind (.writeStrAtom _ _) fun _ => .bind (.writeStrAtom _ _) fun _ => .wrAll .writeDataAtom _
theorem EmitsOr.writeIlst {e} (a) : EmitsOr e (writeIlst a) := .bind (.writeHead _) fun _ => .wrAll .atom _
theorem EmitsOr.writeHdlr {e} (a) : EmitsOr e (writeHdlr a) := .bind (.writeHead _) fun _ => .emit _
theorem EmitsOr.writeMeta {e} (a) : EmitsOr e (writeMeta a) :=
  .bind (.writeHead _) fun _ => .bind (.bind (.emit _) fun _ => .emit _) fun _ => .bind (.wrOpt .writeHdlr _) fun _ => .wrOpt .writeIlst _
theorem EmitsOr.writeUdta {e} (a) : EmitsOr e (writeUdta a) := .bind (.writeHead _) fun _ => .wrOpt .writeMeta _
theorem EmitsOr.newAtoms {e} (p atoms) : EmitsOr e (newAtomsWr p atoms) := by
  unfold newAtomsWr
  split
  · exact .writeUdta _
  · exact .writeMeta _
  · exact .bind (.wrOpt .writeHdlr _) fun _ => .writeIlst _

theorem wEmit_runs {e} {m : Wr Unit} (h : EmitsOr e m) : Runs e anyState (wEmit m) anyState := fun s hs => by
  unfold wEmit
  dsimp only
  rcases wAll_runs (e := e) (f := wWriteAll) wWriteAll_runs' (m e).1 s hs with ⟨a, s', h1, -⟩ | ⟨h1, hc⟩
  · rw [h1]
    dsimp only
    rcases h with h | ⟨h, hc⟩
    · rw [h]; exact .inl ⟨(), s', rfl, trivial⟩
    · rw [h]; exact .inr ⟨rfl, hc⟩
  · refine .inr ⟨?_, hc⟩
    cases hr : wAll wWriteAll (m e).1 e s with
    | mk o s' => rw [hr] at h1; simp only at h1; subst h1; rfl

theorem wSetLen_runs {e n} (h : n ≤ e.maxPos) : Runs e anyState (wSetLen n) anyState := fun s _ => by
  rw [wSetLen, if_pos h]
  exact .inl ⟨(), _, rfl, trivial⟩

theorem wFlush_runs {e} : Runs e anyState wFlush anyState := fun s _ => .inl ⟨(), _, rfl, trivial⟩

/-- A step of arithmetic with a known result. -/
theorem Runs.addI {β e I K} {a b : Int} {f : Int → W β} (h1 : -2^63 ≤ a + b) (h2 : a + b < 2^63) (h : Runs e I (f (a + b)) K) :
    Runs e I ((addI a b).w >>= f) K := fun s hs => by
  have : (Mp4.addI a b).w e s = (.ok (a + b), s) := E.w_ok (by rw [Mp4.addI, if_pos ⟨h1, h2⟩]) s
  rw [W.bind_ok this]
  exact h s hs

theorem asU64_int {n : Int} (h0 : 0 ≤ n) (h : n < 2^63) : (asU64 n : Int) = n := by
  unfold asU64
  omega

/-- The writing phase succeeds unless chunk offsets have to be adjusted. -/
theorem writePhase_runs {e : Env} {F : Bytes} {mdatPos : Nat} {moov : MoovBounds} {atoms : List AtomData} {p : Plan} {moved : Bytes}
    (hp : PlanOk F atoms p) (hm : p.movedDataStart ≤ F.length) (hno : ¬ mdatPos > moov.bounds.pos)
    (hmax : e.maxPos < 2^63) (hsp : 2 * F.length + insertBound atoms ≤ e.maxPos) :
    Runs e anyState (writePhase mdatPos moov p F.length moved atoms) anyState := by
  obtain ⟨h1, h2, h3, h4, h5⟩ := hp
  have hs1 : asI64 F.length = F.length := asI64_small (by omega)
  have hs2 : asI64 p.movedDataStart = p.movedDataStart := asI64_small (by omega)
  unfold writePhase
  rw [if_neg hno, hs1, hs2]
  refine Runs.bind (wAll_runs' _ fun a ha => patchHead_runs ?_) fun _ => ?_
  · have := h5 a (List.mem_reverse.mp ha); omega
  refine Runs.addI (by omega) (by omega) ?_
  have hn := asU64_int (n := F.length + p.lenDiff) (by omega) (by omega)
  refine Runs.bind (wSetLen_runs (by omega)) fun _ => ?_
  refine Runs.bind (Runs.weaken (wSeekStart_runs (I := anyState) (by omega))) fun _ => ?_
  refine Runs.bind (wEmit_runs (.newAtoms p atoms)) fun _ => ?_
  refine Runs.addI (by omega) (by omega) ?_
  have hn2 := asU64_int (n := p.movedDataStart + p.lenDiff) (by omega) (by omega)
  refine Runs.bind (Runs.weaken (wSeekStart_runs (I := anyState) (by omega))) fun _ => ?_
  exact Runs.bind (wWriteAll_runs' _) fun _ => wFlush_runs

theorem preparePhase_inv {atoms e F pos mp moov p ol moved q} (h : preparePhase atoms e F pos = .ok ((mp, moov, p, ol, moved), q))
    (hmax : e.maxPos < 2^63) :
    (∃ r, findTop e F pos = .ok ((mp, moov), r)) ∧ mkPlan moov atoms e = .ok p ∧ ol = F.length ∧ p.movedDataStart ≤ F.length ∧
      moved = F.drop p.movedDataStart := by
  unfold preparePhase at h
  obtain ⟨⟨mp', moov'⟩, q1, h1, k1⟩ := P.bind_inv h
  obtain ⟨p', q2, h2, k2⟩ := P.bind_inv k1
  obtain ⟨ol', q3, h3, k3⟩ := P.bind_inv k2
  obtain ⟨ml, q4, h4, k4⟩ := P.bind_inv k3
  obtain ⟨_, q5, h5, k5⟩ := P.bind_inv k4
  obtain ⟨_, q6, h6, k6⟩ := P.bind_inv k5
  obtain ⟨mv, q7, h7, k7⟩ := P.bind_inv k6
  obtain ⟨k8, -⟩ := P.pure_inv k7
  simp only [Prod.mk.injEq] at k8
  obtain ⟨rfl, rfl, rfl, rfl, rfl⟩ := k8
  simp only [seekEnd, Out.ok.injEq, Prod.mk.injEq] at h3
  obtain ⟨rfl, rfl⟩ := h3
  obtain ⟨h2, -⟩ := E.p_inv h2
  obtain ⟨h4, -⟩ := E.p_inv h4
  obtain ⟨h5, -⟩ := E.p_inv h5
  have h5' : ml < 2^63 := by
    unfold allocU8 at h5
    split at h5
    · simp at h5
    · omega
  unfold seekStart at h6
  split at h6
  · have hle : p'.movedDataStart ≤ F.length := by
      unfold subU at h4
      split at h4
      · assumption
      · split at h4 <;> simp at h4
        omega
    simp only [Out.ok.injEq, Prod.mk.injEq] at h6
    obtain ⟨-, rfl⟩ := h6
    simp only [readToEnd, Out.ok.injEq, Prod.mk.injEq] at h7
    exact ⟨⟨_, h1⟩, h2, rfl, hle, h7.1.symm⟩
  · simp at h6

end Mp4
