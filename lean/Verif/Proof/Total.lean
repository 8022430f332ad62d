import Verif.Proof.Monad
/-
Termination of all loops in a build with overflow checks.
-/
namespace Mp4

/-- Does not run out of iterations. -/
def Term {α} (e : Env) (m : P α) : Prop := ∀ F p, m e F p ≠ .fuel

theorem Term.bind {α β} {e} {m : P α} {f : α → P β} (h1 : Term e m) (h2 : ∀ a, Term e (f a)) : Term e (m >>= f) := by
  intro F p
  rw [P.bind_apply]
  have := h1 F p
  split
  · exact h2 _ _ _
  · simp
  · simp
  · rename_i h; exact absurd h this

theorem P.fuel_inv {α β} {m : P α} {f : α → P β} {e F p} (h : (m >>= f) e F p = .fuel) :
    m e F p = .fuel ∨ ∃ a q, m e F p = .ok (a, q) ∧ f a e F q = .fuel := by
  rw [P.bind_apply] at h
  split at h
  · rename_i a q hm; exact .inr ⟨a, q, hm, h⟩
  · simp at h
  · simp at h
  · rename_i hm; exact .inl hm

theorem Term.fuel_inv {α β} {m : P α} {f : α → P β} {e F p} (ht : Term e m) (h : (m >>= f) e F p = .fuel) :
    ∃ a q, m e F p = .ok (a, q) ∧ f a e F q = .fuel := by
  rcases P.fuel_inv h with h | h
  · exact absurd h (ht _ _)
  · exact h

theorem Term.pure {α} {e} (a : α) : Term e (pure a : P α) := by intro F p; simp [P.pure_apply]
theorem Term.fail {α} {e} (k) : Term e (fail k : P α) := by intro F p; simp [Mp4.fail]
theorem Term.getFuel {e} : Term e getFuel := by intro F p; simp [Mp4.getFuel]
theorem Term.readExact {e} (n) : Term e (readExact n) := by intro F p; unfold Mp4.readExact; split <;> simp
theorem Term.seekCur {e} (n) : Term e (seekCur n) := by intro F p; unfold Mp4.seekCur; split <;> simp
theorem Term.seekStart {e} (n) : Term e (seekStart n) := by intro F p; unfold Mp4.seekStart; split <;> simp
theorem Term.seekEnd {e} : Term e seekEnd := by intro F p; simp [Mp4.seekEnd]
theorem Term.tellP {e} : Term e tellP := by intro F p; simp [Mp4.tellP]
theorem Term.E {α} {e} {m : E α} (h : m e ≠ .fuel) : Term e m.p := by
  intro F p; unfold Mp4.E.p; split <;> simp; contradiction
theorem Term.ite {α} {e} {c : Prop} [Decidable c] {a b : P α} (h1 : Term e a) (h2 : Term e b) :
    Term e (if c then a else b) := by split <;> assumption

theorem addU_nf (a b e) : addU a b e ≠ .fuel := by unfold addU; split <;> (try split) <;> simp
theorem subU_nf (a b e) : subU a b e ≠ .fuel := by unfold subU; split <;> (try split) <;> simp
theorem mulU_nf (a b e) : mulU a b e ≠ .fuel := by unfold mulU; split <;> (try split) <;> simp
theorem divU_nf (a b e) : divU a b e ≠ .fuel := by unfold divU; split <;> simp
theorem addI_nf (a b e) : addI a b e ≠ .fuel := by unfold addI; split <;> (try split) <;> simp
theorem subI_nf (a b e) : subI a b e ≠ .fuel := by unfold subI; split <;> (try split) <;> simp
theorem allocU8_nf (n e) : allocU8 n e ≠ .fuel := by unfold allocU8; split <;> simp
theorem contentLen_nf (s : Size) (e) : s.contentLen e ≠ .fuel := subU_nf _ _ _
theorem end_nf (s : AtomBounds) (e) : s.end_ e ≠ .fuel := addU_nf _ _ _
theorem pure_nf {α} (a : α) (e) : (pure a : E α) e ≠ .fuel := by
  show Out.ok a ≠ _; simp

theorem Term.readU8 {e} : Term e readU8 := Term.bind (.readExact _) fun _ => .pure _
theorem Term.readU16 {e} : Term e readU16 := Term.bind (.readExact _) fun _ => .pure _
theorem Term.readU32 {e} : Term e readU32 := Term.bind (.readExact _) fun _ => .pure _
theorem Term.readU64 {e} : Term e readU64 := Term.bind (.readExact _) fun _ => .pure _
theorem Term.readU8Vec {e} (n) : Term e (readU8Vec n) := Term.bind (.E (allocU8_nf _ _)) fun _ => .readExact _
theorem Term.readUtf8 {e} (n) : Term e (readUtf8 n) :=
  Term.bind (.readU8Vec n) fun b => by split <;> first | exact .pure _ | exact .fail _
theorem Term.readUtf16 {e} (n) : Term e (readUtf16 n) :=
  Term.bind (.E (allocU8_nf _ _)) fun _ => .bind (.readExact _) fun b => by
    split <;> first | exact .pure _ | exact .fail _
theorem Term.remaining {e} : Term e remainingStreamLen :=
  .bind .tellP fun _ => .bind .seekEnd fun _ => .bind (.E (subU_nf _ _ _)) fun _ => .bind (.seekStart _) fun _ => .pure _

theorem Term.dataParse {e} (t n) : Term e (Data.parse t n) := by
  unfold Data.parse
  split <;> first
    | exact .bind (.readU8Vec _) fun _ => .pure _
    | exact .bind (.readUtf8 _) fun _ => .pure _
    | exact .bind (.readUtf16 _) fun _ => .pure _
    | exact .fail _

theorem Term.parseHead {e} : Term e parseHead :=
  .bind .readU32 fun _ => .bind (.readExact _) fun _ => .ite (.bind .readU64 fun _ => .pure _) (.ite (.fail _) (.pure _))
theorem Term.parseFullHead {e} : Term e parseFullHead := .bind .readU8 fun _ => .bind (.readExact _) fun _ => .pure _
theorem Term.findBounds {e} (s) : Term e (findBounds s) :=
  .bind .tellP fun _ => .bind (.E (subU_nf _ _ _)) fun _ => .pure _
theorem Term.seekToEnd {e} (s) : Term e (seekToEnd s) :=
  .bind .tellP fun _ => .bind (.E (end_nf _ _)) fun _ => .bind (.E (subU_nf _ _ _)) fun _ => .seekCur _
theorem Term.skipContent {e} (s) : Term e (skipContent s) :=
  .bind (.E (contentLen_nf _ _)) fun _ => .seekCur _

/-! ### Every step of a container loop advances -/

/-- Succeeds only for atoms of at least 8 bytes. -/
def Big {α} (e : Env) (n : Nat) (m : P α) : Prop := ∀ F p x, m e F p = .ok x → 8 ≤ n

theorem Big.bind_left {α β} {e n} {m : P α} {f : α → P β} (h : Big e n m) : Big e n (m >>= f) := by
  intro F p x hx
  obtain ⟨a, q, h1, _⟩ := P.bind_inv hx
  exact h _ _ _ h1
theorem Big.bind_right {α β} {e n} {m : P α} {f : α → P β} (h : ∀ a, Big e n (f a)) : Big e n (m >>= f) := by
  intro F p x hx
  obtain ⟨a, q, _, h1⟩ := P.bind_inv hx
  exact h _ _ _ _ h1
theorem Big.ite {α} {e n} {c : Prop} [Decidable c] {a b : P α} (h1 : Big e n a) (h2 : Big e n b) :
    Big e n (if c then a else b) := by split <;> assumption
theorem Big.fail {α} {e n} (k) : Big e n (fail k : P α) := by intro F p x h; simp [Mp4.fail] at h

theorem contentLen_big {s : Size} {e : Env} {n} (hc : e.checked = true) (h : s.contentLen e = .ok n) : 8 ≤ s.len := by
  unfold Size.contentLen subU at h
  rw [hc] at h
  by_cases hx : (if s.ext = true then 16 else 8) ≤ s.len
  · split at hx <;> omega
  · rw [if_neg hx] at h; simp at h

theorem Big.contentLen {e : Env} {s : Size} (hc : e.checked = true) : Big e s.len s.contentLen.p := by
  intro F p x h
  exact contentLen_big hc (E.p_inv (a := x.1) (q := x.2) h).1

theorem Big.walk {σ} {e : Env} {s : Size} {handle : σ → Head → P σ} (hc : e.checked = true) (f st parsed) :
    Big e s.len (walk s.contentLen handle f st parsed) := by
  cases f with
  | zero => intro F p x h; simp [Mp4.walk, outOfFuel] at h
  | succ f => rw [Mp4.walk]; exact (Big.contentLen hc).bind_left

theorem Big.loop {σ} {e : Env} {s : Size} {handle : σ → Head → P σ} (hc : e.checked = true) (st parsed) :
    Big e s.len (loop s.contentLen handle st parsed) := Big.bind_right fun _ => Big.walk hc _ _ _

theorem Big.skipContent {e : Env} {h : Head} (hc : e.checked = true) : Big e h.size.len (skipContent h) :=
  (Big.contentLen hc).bind_left

/-- Positions never move in front of where an atom's content starts without a check at the end. -/
theorem bounds_big {e : Env} (hc : e.checked = true) {s : Size} {b : AtomBounds} {F F' : Bytes} {p q q' : Nat} {x}
    (h1 : findBounds s e F p = .ok (b, q)) (hq : p ≤ q') (h2 : seekToEnd b e F' q' = .ok x) : 8 ≤ s.len := by
  rw [findBounds] at h1
  obtain ⟨c, r, ht, h1⟩ := P.bind_inv h1
  obtain ⟨c2, r2, hs, h1⟩ := P.bind_inv h1
  obtain ⟨rfl, rfl⟩ := P.pure_inv h1
  have hs' := (E.p_inv hs).1
  simp only [tellP, Out.ok.injEq, Prod.mk.injEq] at ht
  obtain ⟨rfl, rfl⟩ := ht
  rw [seekToEnd] at h2
  obtain ⟨d, r3, ht, h2⟩ := P.bind_inv h2
  obtain ⟨en, r4, he, h2⟩ := P.bind_inv h2
  obtain ⟨df, r5, hd, h2⟩ := P.bind_inv h2
  simp only [tellP, Out.ok.injEq, Prod.mk.injEq] at ht
  obtain ⟨rfl, rfl⟩ := ht
  have he' := (E.p_inv he).1
  have hd' := (E.p_inv hd).1
  have hh : 8 ≤ s.headLen := by unfold Size.headLen; split <;> omega
  simp only [AtomBounds.end_, addU, subU, hc, if_true] at hs' he' hd'
  split at hs' <;> try (simp at hs'; done)
  split at he' <;> try (simp at he'; done)
  split at hd' <;> try (simp at hd'; done)
  simp only [Out.ok.injEq] at hs' he' hd'
  omega

/-- Never moves backwards. -/
def Fwd {α} (e : Env) (m : P α) : Prop := ∀ F p a q, m e F p = .ok (a, q) → p ≤ q

theorem Fwd.bind {α β} {e} {m : P α} {f : α → P β} (h1 : Fwd e m) (h2 : ∀ a, Fwd e (f a)) : Fwd e (m >>= f) := by
  intro F p a q h
  obtain ⟨b, r, h3, h4⟩ := P.bind_inv h
  exact Nat.le_trans (h1 _ _ _ _ h3) (h2 _ _ _ _ _ h4)
theorem Fwd.pure {α} {e} (a : α) : Fwd e (pure a : P α) := by
  intro F p b q h; obtain ⟨-, rfl⟩ := P.pure_inv h; exact Nat.le_refl _
theorem Fwd.fail {α} {e} (k) : Fwd e (fail k : P α) := by intro F p x q h; simp [Mp4.fail] at h
theorem Fwd.E {α} {e} (m : E α) : Fwd e m.p := by
  intro F p b q h; obtain ⟨-, rfl⟩ := E.p_inv h; exact Nat.le_refl _
theorem Fwd.ite {α} {e} {c : Prop} [Decidable c] {a b : P α} (h1 : Fwd e a) (h2 : Fwd e b) :
    Fwd e (if c then a else b) := by split <;> assumption
theorem Fwd.readExact {e} (n) : Fwd e (readExact n) := by
  intro F p b q h; unfold Mp4.readExact at h; split at h <;> simp at h; omega
theorem Fwd.seekCur {e} (n : Nat) : Fwd e (seekCur n) := by
  intro F p b q h; unfold Mp4.seekCur at h; split at h <;> simp at h; omega
theorem Fwd.readU8 {e} : Fwd e readU8 := Fwd.bind (.readExact _) fun _ => .pure _
theorem Fwd.readU16 {e} : Fwd e readU16 := Fwd.bind (.readExact _) fun _ => .pure _
theorem Fwd.readU32 {e} : Fwd e readU32 := Fwd.bind (.readExact _) fun _ => .pure _
theorem Fwd.readU64 {e} : Fwd e readU64 := Fwd.bind (.readExact _) fun _ => .pure _
theorem Fwd.parseHead {e} : Fwd e parseHead :=
  .bind .readU32 fun _ => .bind (.readExact _) fun _ => .ite (.bind .readU64 fun _ => .pure _) (.ite (.fail _) (.pure _))
theorem Fwd.parseFullHead {e} : Fwd e parseFullHead := .bind .readU8 fun _ => .bind (.readExact _) fun _ => .pure _

theorem findBounds_pos {s e F p b q} (h : findBounds s e F p = .ok (b, q)) : p = q := by
  rw [findBounds] at h
  obtain ⟨c, r, ht, h1⟩ := P.bind_inv h
  obtain ⟨c2, r2, hs, h1⟩ := P.bind_inv h1
  obtain ⟨-, rfl⟩ := P.pure_inv h1
  obtain ⟨-, rfl⟩ := E.p_inv hs
  simp only [tellP, Out.ok.injEq, Prod.mk.injEq] at ht
  exact ht.2

/-! ### The loops -/

theorem walk_term {σ} {e : Env} {limit : E Nat} {handle : σ → Head → P σ} (hc : e.checked = true)
    (hl : limit e ≠ .fuel) (hh : ∀ s h, Term e (handle s h)) (hb : ∀ s h, Big e h.size.len (handle s h)) :
    ∀ f s parsed, 2^64 ≤ parsed + 8 * (f - 1) → 0 < f → Term e (walk limit handle f s parsed) := by
  intro f
  induction f with
  | zero => intro s parsed _ h; omega
  | succ f ih =>
    intro s parsed hf _
    rw [walk]
    refine Term.bind (.E hl) fun lim => ?_
    intro F p hx
    rw [P.if_apply] at hx
    split at hx
    · obtain ⟨hd, q, _, hx⟩ := Term.fuel_inv .parseHead hx
      obtain ⟨s', q', hs, hx⟩ := Term.fuel_inv (hh _ _) hx
      have h8 := hb _ _ _ _ _ hs
      obtain ⟨n, q2, hn, hx⟩ := Term.fuel_inv (.E (addU_nf _ _ _)) hx
      obtain ⟨hn, -⟩ := E.p_inv hn
      simp only [addU, hc, if_true] at hn
      split at hn <;> simp at hn
      subst hn
      exact ih _ _ (by omega) (by omega) _ _ hx
    · simp [P.pure_apply] at hx

/-- Enough iterations for every loop. -/
def Enough (e : Env) : Prop := 2^61 < e.fuel

theorem loop_term {σ} {e : Env} {limit : E Nat} {handle : σ → Head → P σ} (hc : e.checked = true) (hf : Enough e)
    (hl : limit e ≠ .fuel) (hh : ∀ s h, Term e (handle s h)) (hb : ∀ s h, Big e h.size.len (handle s h)) (s parsed) :
    Term e (loop limit handle s parsed) := by
  intro F p
  rw [loop, P.bind_ok (show Mp4.getFuel e F p = .ok (e.fuel, p) from rfl)]
  unfold Enough at hf
  exact walk_term hc hl hh hb e.fuel s parsed (by omega) (by omega) F p

variable {e : Env}

theorem Term.parseMvhd (s) : Term e (parseMvhd s) :=
  .bind (.findBounds _) fun _ => .bind .parseFullHead fun _ => .ite
    (.bind (.seekCur _) fun _ => .bind .readU32 fun _ => .bind .readU32 fun _ => .bind (.E (mulU_nf _ _ _)) fun _ =>
      .bind (.E (divU_nf _ _ _)) fun _ => .bind (.seekToEnd _) fun _ => .pure _)
    (.ite
      (.bind (.seekCur _) fun _ => .bind .readU32 fun _ => .bind .readU64 fun _ => .bind (.E (mulU_nf _ _ _)) fun _ =>
        .bind (.E (divU_nf _ _ _)) fun _ => .bind (.seekToEnd _) fun _ => .pure _)
      (.fail _))

/-- `find_bounds`, then something moving forward, then `seek_to_end`. -/
theorem Big.bounds {α β} {s : Size} {m : AtomBounds → P α} {g : AtomBounds → α → β} (hc : e.checked = true)
    (hm : ∀ b, Fwd e (m b)) :
    Big e s.len (findBounds s >>= fun b => m b >>= fun a => seekToEnd b >>= fun _ => pure (g b a)) := by
  intro F p x h
  obtain ⟨b, q, h1, h⟩ := P.bind_inv h
  obtain ⟨a, q1, h2, h⟩ := P.bind_inv h
  obtain ⟨_, q2, h3, _⟩ := P.bind_inv h
  have := findBounds_pos h1
  exact bounds_big hc h1 (by have := hm _ _ _ _ _ h2; omega) h3

theorem Big.parseMvhd (hc : e.checked = true) (s : Size) : Big e s.len (parseMvhd s) := by
  intro F p x h
  rw [Mp4.parseMvhd] at h
  obtain ⟨b, q, h1, h⟩ := P.bind_inv h
  obtain ⟨v, q1, h2, h⟩ := P.bind_inv h
  have hp := findBounds_pos h1
  have hq := Fwd.parseFullHead _ _ _ _ h2
  dsimp only at h
  split at h
  · obtain ⟨_, q2, h3, h⟩ := P.bind_inv h
    obtain ⟨_, q3, h4, h⟩ := P.bind_inv h
    obtain ⟨_, q4, h5, h⟩ := P.bind_inv h
    obtain ⟨_, q5, h6, h⟩ := P.bind_inv h
    obtain ⟨_, q6, h7, h⟩ := P.bind_inv h
    obtain ⟨_, q7, h8, h⟩ := P.bind_inv h
    have a1 := Fwd.seekCur (e := e) 8 _ _ _ _ h3
    have a2 := Fwd.readU32 _ _ _ _ h4
    have a3 := Fwd.readU32 _ _ _ _ h5
    have a4 := Fwd.E _ _ _ _ _ h6
    have a5 := Fwd.E _ _ _ _ _ h7
    exact bounds_big hc h1 (by omega) h8
  · split at h
    · obtain ⟨_, q2, h3, h⟩ := P.bind_inv h
      obtain ⟨_, q3, h4, h⟩ := P.bind_inv h
      obtain ⟨_, q4, h5, h⟩ := P.bind_inv h
      obtain ⟨_, q5, h6, h⟩ := P.bind_inv h
      obtain ⟨_, q6, h7, h⟩ := P.bind_inv h
      obtain ⟨_, q7, h8, h⟩ := P.bind_inv h
      have a1 := Fwd.seekCur (e := e) 16 _ _ _ _ h3
      have a2 := Fwd.readU32 _ _ _ _ h4
      have a3 := Fwd.readU64 _ _ _ _ h5
      have a4 := Fwd.E _ _ _ _ _ h6
      have a5 := Fwd.E _ _ _ _ _ h7
      exact bounds_big hc h1 (by omega) h8
    · simp [Mp4.fail] at h

/-! Descriptors -/

theorem Term.descHeadLoop : ∀ k h l, Term e (descHeadLoop k h l)
  | 0, _, _ => .pure _
  | k+1, _, _ => .bind .readU8 fun _ => .ite (.pure _) (Term.descHeadLoop k _ _)

theorem Fwd.descHeadLoop : ∀ k h l, Fwd e (descHeadLoop k h l)
  | 0, _, _ => .pure _
  | k+1, _, _ => .bind .readU8 fun _ => .ite (.pure _) (Fwd.descHeadLoop k _ _)

theorem descHeadLoop_len : ∀ k h l F p x q, descHeadLoop k h l e F p = .ok (x, q) →
    h ≤ x.1 ∧ x.1 ≤ h + k ∧ x.2 < (l + 1) * 128 ^ k
  | 0, h, l, F, p, x, q, hx => by
    obtain ⟨rfl, -⟩ := P.pure_inv hx
    simp
  | k+1, h, l, F, p, x, q, hx => by
    rw [Mp4.descHeadLoop] at hx
    obtain ⟨b, r, _, hx⟩ := P.bind_inv hx
    have hb : b.toNat % 128 < 128 := Nat.mod_lt _ (by decide)
    have h128 : (1 : Nat) ≤ 128 ^ k := Nat.one_le_pow _ _ (by decide)
    have hle : (l * 128 + b.toNat % 128 + 1) * 128 ^ k ≤ (l + 1) * 128 ^ (k + 1) := by
      rw [Nat.pow_succ, Nat.mul_comm (128 ^ k) 128, ← Nat.mul_assoc]
      exact Nat.mul_le_mul_right _ (by omega)
    rw [P.if_apply] at hx
    split at hx
    · obtain ⟨rfl, -⟩ := P.pure_inv hx
      refine ⟨by simp, by dsimp only; omega, ?_⟩
      dsimp only
      have : (l * 128 + b.toNat % 128 + 1) * 1 ≤ (l * 128 + b.toNat % 128 + 1) * 128 ^ k := Nat.mul_le_mul_left _ h128
      omega
    · have := descHeadLoop_len k _ _ _ _ _ _ hx
      exact ⟨by omega, by omega, by omega⟩

theorem Term.parseDescHead : Term e parseDescHead := .bind .readU8 fun _ => .bind (.descHeadLoop _ _ _) fun _ => .pure _
theorem Fwd.parseDescHead : Fwd e parseDescHead := .bind .readU8 fun _ => .bind (.descHeadLoop _ _ _) fun _ => .pure _

theorem parseDescHead_len {F p x q} (h : parseDescHead e F p = .ok (x, q)) :
    1 ≤ x.2.1 ∧ x.2.1 ≤ 5 ∧ x.2.2 < 2^28 := by
  rw [parseDescHead] at h
  obtain ⟨t, r, _, h⟩ := P.bind_inv h
  obtain ⟨y, r, h1, h⟩ := P.bind_inv h
  obtain ⟨rfl, -⟩ := P.pure_inv h
  have := descHeadLoop_len _ _ _ _ _ _ _ h1
  dsimp only
  omega

theorem descWalk_term {wanted handle limit} (hl : limit < 2^28) (hh : ∀ i n, n < 2^28 → Term e (handle i n)) :
    ∀ f info parsed, 2^28 ≤ parsed + (f - 1) → 0 < f → Term e (descWalk wanted handle limit f info parsed) := by
  intro f
  induction f with
  | zero => intro i parsed _ h; omega
  | succ f ih =>
    intro i parsed hf _ F p hx
    rw [descWalk, P.if_apply] at hx
    split at hx
    · obtain ⟨x, q, hd, hx⟩ := Term.fuel_inv .parseDescHead hx
      have hlen := parseDescHead_len hd
      obtain ⟨tag, headLen, descLen⟩ := x
      simp only at hlen hx
      obtain ⟨i', q', _, hx⟩ := Term.fuel_inv
        (Term.ite (hh _ _ hlen.2.2) (.bind (.seekCur _) fun _ => .pure _)) hx
      obtain ⟨st, q2, hst, hx⟩ := Term.fuel_inv (.E (addU_nf _ _ _)) hx
      obtain ⟨n, q3, hn, hx⟩ := Term.fuel_inv (.E (addU_nf _ _ _)) hx
      have hst' := (E.p_inv hst).1
      have hn' := (E.p_inv hn).1
      rw [addU, if_pos (by omega)] at hst'
      simp only [Out.ok.injEq] at hst'
      rw [addU, if_pos (by omega)] at hn'
      simp only [Out.ok.injEq] at hn'
      exact ih _ _ (by omega) (by omega) _ _ hx
    · simp [P.pure_apply] at hx

theorem descWalk_fwd {wanted handle limit} (hh : ∀ i n, n < 2^28 → Fwd e (handle i n)) :
    ∀ f info parsed, Fwd e (descWalk wanted handle limit f info parsed) := by
  intro f
  induction f with
  | zero => intro i parsed F p a q h; simp [descWalk, outOfFuel] at h
  | succ f ih =>
    intro i parsed F p a q hx
    rw [descWalk, P.if_apply] at hx
    split at hx
    · obtain ⟨x, q1, hd, hx⟩ := P.bind_inv hx
      have hlen := parseDescHead_len hd
      have h1 := Fwd.parseDescHead _ _ _ _ hd
      obtain ⟨tag, headLen, descLen⟩ := x
      simp only at hlen hx
      have hs : asI64 descLen = (descLen : Int) := by rw [asI64, if_pos (by omega)]
      rw [hs] at hx
      obtain ⟨i', q2, h2, hx⟩ := P.bind_inv hx
      have h2 := Fwd.ite (hh _ _ hlen.2.2) (.bind (.seekCur _) fun _ => .pure _) _ _ _ _ h2
      obtain ⟨st, q3, h3, hx⟩ := P.bind_inv hx
      obtain ⟨n, q4, h4, hx⟩ := P.bind_inv hx
      have h3 := Fwd.E _ _ _ _ _ h3
      have h4 := Fwd.E _ _ _ _ _ h4
      have := ih _ _ _ _ _ _ hx
      omega
    · obtain ⟨-, rfl⟩ := P.pure_inv hx
      exact Nat.le_refl _

theorem Term.parseDsDesc (i n) : Term e (parseDsDesc i n) :=
  .bind .readU16 fun _ => .bind (.E (subU_nf _ _ _)) fun _ => .bind (.seekCur _) fun _ => .pure _

theorem Fwd.parseDsDesc (hc : e.checked = true) (i) {n : Nat} (hn : n < 2^28) : Fwd e (parseDsDesc i n) := by
  intro F p a q h
  rw [Mp4.parseDsDesc] at h
  obtain ⟨_, q1, h1, h⟩ := P.bind_inv h
  obtain ⟨m, q2, h2, h⟩ := P.bind_inv h
  obtain ⟨_, q3, h3, h⟩ := P.bind_inv h
  obtain ⟨-, rfl⟩ := P.pure_inv h
  have a1 := Fwd.readU16 _ _ _ _ h1
  have a2 := Fwd.E _ _ _ _ _ h2
  obtain ⟨h2, -⟩ := E.p_inv h2
  simp only [subU, hc, if_true] at h2
  split at h2 <;> simp at h2
  rw [asI64, if_pos (by omega)] at h3
  have a3 := Fwd.seekCur _ _ _ _ _ h3
  omega

theorem Term.parseDcDesc (hf : Enough e) (i) {n : Nat} (hn : n < 2^28) : Term e (parseDcDesc i n) := by
  refine .bind (.seekCur _) fun _ => .bind .readU32 fun _ => .bind .readU32 fun _ => ?_
  intro F p
  rw [P.bind_ok (show Mp4.getFuel e F p = .ok (e.fuel, p) from rfl)]
  unfold Enough at hf
  exact descWalk_term hn (fun _ _ _ => .parseDsDesc _ _) _ _ _ (by omega) (by omega) F p

theorem Fwd.parseDcDesc (hc : e.checked = true) (i) (n : Nat) : Fwd e (parseDcDesc i n) :=
  .bind (.seekCur 5) fun _ => .bind .readU32 fun _ => .bind .readU32 fun _ =>
    .bind (fun F p a q h => by simp [getFuel] at h; omega) fun _ => descWalk_fwd (fun _ _ h => .parseDsDesc hc _ h) _ _ _

theorem Term.parseEsDesc (hf : Enough e) (i) {n : Nat} (hn : n < 2^28) : Term e (parseEsDesc i n) := by
  refine .bind (.seekCur _) fun _ => ?_
  intro F p
  rw [P.bind_ok (show Mp4.getFuel e F p = .ok (e.fuel, p) from rfl)]
  have hf' := hf
  unfold Enough at hf'
  exact descWalk_term hn (fun _ _ h => .parseDcDesc hf _ h) _ _ _ (by omega) (by omega) F p

theorem Fwd.parseEsDesc (hc : e.checked = true) (i) (n : Nat) : Fwd e (parseEsDesc i n) :=
  .bind (.seekCur 3) fun _ =>
    .bind (fun F p a q h => by simp [getFuel] at h; omega) fun _ => descWalk_fwd (fun _ _ _ => .parseDcDesc hc _ _) _ _ _

theorem Term.parseEsds (hf : Enough e) (i s) : Term e (parseEsds i s) := by
  refine .bind .parseFullHead fun _ => .ite (.fail _) ?_
  intro F p hx
  obtain ⟨x, q, hd, hx⟩ := Term.fuel_inv .parseDescHead hx
  have hlen := parseDescHead_len hd
  obtain ⟨tag, headLen, descLen⟩ := x
  simp only at hlen hx
  rw [P.if_apply] at hx
  split at hx
  · simp [Mp4.fail] at hx
  · obtain ⟨_, _, _, hx⟩ := Term.fuel_inv (.E (contentLen_nf _ _)) hx
    obtain ⟨_, _, _, hx⟩ := Term.fuel_inv (.E (subU_nf _ _ _)) hx
    obtain ⟨_, _, _, hx⟩ := Term.fuel_inv (.E (subU_nf _ _ _)) hx
    exact Term.parseEsDesc hf _ (by omega) _ _ hx

theorem Fwd.parseEsds (hc : e.checked = true) (i s) : Fwd e (parseEsds i s) :=
  .bind .parseFullHead fun _ => .ite (.fail _) (.bind .parseDescHead fun _ => .ite (.fail _)
    (.bind (.E _) fun _ => .bind (.E _) fun _ => .bind (.E _) fun _ => .parseEsDesc hc _ _))

theorem Term.parseMp4a (hf : Enough e) (s) : Term e (parseMp4a s) :=
  .bind (.findBounds _) fun _ => .bind (.seekCur _) fun _ => .bind .parseHead fun _ => .ite (.fail _)
    (.bind (.parseEsds hf _ _) fun _ => .bind (.seekToEnd _) fun _ => .pure _)

theorem Big.parseMp4a (hc : e.checked = true) (s : Size) : Big e s.len (parseMp4a s) := by
  intro F p x h
  rw [Mp4.parseMp4a] at h
  obtain ⟨b, q, h1, h⟩ := P.bind_inv h
  obtain ⟨_, q1, h2, h⟩ := P.bind_inv h
  obtain ⟨_, q2, h3, h⟩ := P.bind_inv h
  have hp := findBounds_pos h1
  have a1 := Fwd.seekCur (e := e) 28 _ _ _ _ h2
  have a2 := Fwd.parseHead _ _ _ _ h3
  rw [P.if_apply] at h
  split at h
  · simp [Mp4.fail] at h
  · obtain ⟨_, q3, h4, h⟩ := P.bind_inv h
    obtain ⟨_, q4, h5, h⟩ := P.bind_inv h
    have a3 := Fwd.parseEsds hc _ _ _ _ _ _ h4
    exact bounds_big hc h1 (by omega) h5

theorem Big.findLeaf (hc : e.checked = true) (s : Size) : Big e s.len (findLeaf s) := by
  intro F p x h
  rw [Mp4.findLeaf] at h
  obtain ⟨b, q, h1, h⟩ := P.bind_inv h
  obtain ⟨_, q4, h5, h⟩ := P.bind_inv h
  have hp := findBounds_pos h1
  exact bounds_big hc h1 (by omega) h5

theorem Term.findLeaf (s) : Term e (findLeaf s) :=
  .bind (.findBounds _) fun _ => .bind (.seekToEnd _) fun _ => .pure _

/-! Containers -/

/-- The `match` of a container that interprets one kind of child. -/
theorem Term.one {σ τ} {fc : Fourcc} {parse : Size → P τ} {g : σ → τ → σ} (h : ∀ s, Term e (parse s)) (s : σ) (hd : Head) :
    Term e (if hd.fourcc = fc then do let a ← parse hd.size; Pure.pure (g s a) else do Mp4.skipContent hd; Pure.pure s) :=
  .ite (.bind (h _) fun _ => .pure _) (.bind (.skipContent _) fun _ => .pure _)

theorem Big.one {σ τ} {fc : Fourcc} {parse : Size → P τ} {g : σ → τ → σ} (hc : e.checked = true)
    (h : ∀ s : Size, Big e s.len (parse s)) (s : σ) (hd : Head) :
    Big e hd.size.len (if hd.fourcc = fc then do let a ← parse hd.size; Pure.pure (g s a) else do Mp4.skipContent hd; Pure.pure s) :=
  .ite (h _).bind_left (Big.skipContent hc).bind_left

theorem Term.parseStsd (hc : e.checked = true) (hf : Enough e) (s) : Term e (parseStsd s) :=
  .bind .parseFullHead fun _ => .ite (.fail _) (.bind (.seekCur _) fun _ =>
    loop_term hc hf (contentLen_nf _ _) (Term.one (g := fun _ a => some a) (.parseMp4a hf))
      (Big.one (g := fun _ a => some a) hc (.parseMp4a hc)) _ _)
theorem Big.parseStsd (hc : e.checked = true) (s : Size) : Big e s.len (parseStsd s) :=
  .bind_right fun _ => .ite (.fail _) (.bind_right fun _ => .loop hc _ _)

theorem Term.parseStbl (hc : e.checked = true) (hf : Enough e) (s) : Term e (parseStbl s) :=
  loop_term hc hf (contentLen_nf _ _) (Term.one (g := fun _ a => some a) (.parseStsd hc hf))
    (Big.one (g := fun _ a => some a) hc (.parseStsd hc)) _ _
theorem Term.parseMinf (hc : e.checked = true) (hf : Enough e) (s) : Term e (parseMinf s) :=
  loop_term hc hf (contentLen_nf _ _) (Term.one (g := fun _ a => some a) (.parseStbl hc hf))
    (Big.one (g := fun _ a => some a) hc (fun _ => .loop hc _ _)) _ _
theorem Term.parseMdia (hc : e.checked = true) (hf : Enough e) (s) : Term e (parseMdia s) :=
  loop_term hc hf (contentLen_nf _ _) (Term.one (g := fun _ a => some a) (.parseMinf hc hf))
    (Big.one (g := fun _ a => some a) hc (fun _ => .loop hc _ _)) _ _
theorem Term.parseTrak (hc : e.checked = true) (hf : Enough e) (s) : Term e (parseTrak s) :=
  loop_term hc hf (contentLen_nf _ _) (Term.one (g := fun _ a => some a) (.parseMdia hc hf))
    (Big.one (g := fun _ a => some a) hc (fun _ => .loop hc _ _)) _ _

theorem Term.itemHandle (s h) : Term e (itemHandle s h) :=
  .ite (.bind .parseFullHead fun _ => .ite (.fail _) (.bind (.seekCur _) fun _ => .bind (.E (contentLen_nf _ _)) fun _ =>
      .bind (.E (subU_nf _ _ _)) fun _ => .bind (.dataParse _ _) fun _ => .pure _))
    (.ite (.bind .parseFullHead fun _ => .ite (.fail _) (.bind (.E (contentLen_nf _ _)) fun _ =>
        .bind (.E (subU_nf _ _ _)) fun _ => .bind (.readUtf8 _) fun _ => .pure _))
      (.ite (.bind .parseFullHead fun _ => .ite (.fail _) (.bind (.E (contentLen_nf _ _)) fun _ =>
          .bind (.E (subU_nf _ _ _)) fun _ => .bind (.readUtf8 _) fun _ => .pure _))
        (.bind (.skipContent _) fun _ => .pure _)))

theorem Big.itemHandle (hc : e.checked = true) (s h) : Big e h.size.len (itemHandle s h) :=
  .ite (.bind_right fun _ => .ite (.fail _) (.bind_right fun _ => (Big.contentLen hc).bind_left))
    (.ite (.bind_right fun _ => .ite (.fail _) (Big.contentLen hc).bind_left)
      (.ite (.bind_right fun _ => .ite (.fail _) (Big.contentLen hc).bind_left)
        (Big.skipContent hc).bind_left))

theorem Term.parseItem (hc : e.checked = true) (hf : Enough e) (fc n) : Term e (parseItem fc n) :=
  .bind (loop_term hc hf (pure_nf _ _) .itemHandle (.itemHandle hc) _ _) fun _ => .ite (.fail _) (.pure _)

theorem Term.parseIlst (hc : e.checked = true) (hf : Enough e) (s) : Term e (parseIlst s) :=
  loop_term hc hf (contentLen_nf _ _)
    (fun _ _ => .ite (.bind (.skipContent _) fun _ => .pure _)
      (.bind (.E (contentLen_nf _ _)) fun _ => .bind (.parseItem hc hf _ _) fun _ => .pure _))
    (fun _ _ => .ite (Big.skipContent hc).bind_left (Big.contentLen hc).bind_left) _ _

theorem Term.parseMeta (hc : e.checked = true) (hf : Enough e) (s) : Term e (parseMeta s) :=
  .bind .parseFullHead fun _ => .ite (.fail _)
    (loop_term hc hf (contentLen_nf _ _) (Term.one (g := fun _ a => some a) (.parseIlst hc hf))
      (Big.one (g := fun _ a => some a) hc (fun _ => .loop hc _ _)) _ _)
theorem Big.parseMeta (hc : e.checked = true) (s : Size) : Big e s.len (parseMeta s) :=
  .bind_right fun _ => .ite (.fail _) (.loop hc _ _)

theorem Term.parseUdta (hc : e.checked = true) (hf : Enough e) (s) : Term e (parseUdta s) :=
  loop_term hc hf (contentLen_nf _ _) (Term.one (g := fun _ a => some a) (.parseMeta hc hf))
    (Big.one (g := fun _ a => some a) hc (.parseMeta hc)) _ _

theorem Term.parseMoov (hc : e.checked = true) (hf : Enough e) (s) : Term e (parseMoov s) :=
  loop_term hc hf (contentLen_nf _ _)
    (fun _ _ => .ite (.bind (.parseMvhd _) fun _ => .pure _) (.ite (.bind (.parseTrak hc hf _) fun _ => .pure _)
      (.ite (.bind (.parseUdta hc hf _) fun _ => .pure _) (.bind (.skipContent _) fun _ => .pure _))))
    (fun _ _ => .ite (Big.parseMvhd hc _).bind_left (.ite (Big.loop hc _ _).bind_left
      (.ite (Big.loop hc _ _).bind_left (Big.skipContent hc).bind_left))) _ _

theorem topWalk_term (hc : e.checked = true) (hf : Enough e) (len : Nat) :
    ∀ f parsed, 2^64 ≤ parsed + 8 * (f - 1) → 0 < f → Term e (topWalk len f parsed) := by
  intro f
  induction f with
  | zero => intro parsed _ h; omega
  | succ f ih =>
    intro parsed hfu _ F p hx
    rw [topWalk, P.if_apply] at hx
    split at hx
    · simp [Mp4.fail] at hx
    · obtain ⟨hd, q, _, hx⟩ := Term.fuel_inv .parseHead hx
      rw [P.if_apply] at hx
      split at hx
      · exact Term.parseMoov hc hf _ _ _ hx
      · obtain ⟨_, q', hs, hx⟩ := Term.fuel_inv (.skipContent _) hx
        have h8 := Big.skipContent hc _ _ _ hs
        obtain ⟨n, q2, hn, hx⟩ := Term.fuel_inv (.E (addU_nf _ _ _)) hx
        obtain ⟨hn, -⟩ := E.p_inv hn
        simp only [addU, hc, if_true] at hn
        split at hn <;> simp at hn
        subst hn
        exact ih _ (by omega) (by omega) _ _ hx

theorem Term.parseFtyp : Term e parseFtyp :=
  .bind .parseHead fun _ => .ite (.fail _) (.bind (.E (contentLen_nf _ _)) fun _ => .readUtf8 _)

theorem Term.readTagP (hc : e.checked = true) (hf : Enough e) : Term e readTagP := by
  refine .bind .parseFtyp fun _ => .bind .remaining fun _ => ?_
  intro F p
  rw [P.bind_ok (show Mp4.getFuel e F p = .ok (e.fuel, p) from rfl)]
  have hf' := hf
  unfold Enough at hf'
  exact Term.bind (topWalk_term hc hf _ _ _ (by omega) (by omega)) (fun _ => .pure _) F p

/-! ### Writing -/

theorem Term.findStbl (hc : e.checked = true) (hf : Enough e) (s) : Term e (findStbl s) :=
  .bind (.findBounds _) fun _ => loop_term hc hf (contentLen_nf _ _)
    (fun _ _ => .ite (.bind (.findLeaf _) fun _ => .pure _) (.ite (.bind (.findLeaf _) fun _ => .pure _)
      (.bind (.skipContent _) fun _ => .pure _)))
    (fun _ _ => .ite (Big.findLeaf hc _).bind_left (.ite (Big.findLeaf hc _).bind_left (Big.skipContent hc).bind_left)) _ _
theorem Big.findStbl (hc : e.checked = true) (s : Size) : Big e s.len (findStbl s) := .bind_right fun _ => .loop hc _ _

theorem Term.findMinf (hc : e.checked = true) (hf : Enough e) (s) : Term e (findMinf s) :=
  .bind (.findBounds _) fun _ => loop_term hc hf (contentLen_nf _ _) (Term.one (g := fun _ a => some a) (.findStbl hc hf))
    (Big.one (g := fun _ a => some a) hc (.findStbl hc)) _ _
theorem Big.findMinf (hc : e.checked = true) (s : Size) : Big e s.len (findMinf s) := .bind_right fun _ => .loop hc _ _

theorem Term.findMdia (hc : e.checked = true) (hf : Enough e) (s) : Term e (findMdia s) :=
  .bind (.findBounds _) fun _ => loop_term hc hf (contentLen_nf _ _) (Term.one (g := fun _ a => some a) (.findMinf hc hf))
    (Big.one (g := fun _ a => some a) hc (.findMinf hc)) _ _
theorem Big.findMdia (hc : e.checked = true) (s : Size) : Big e s.len (findMdia s) := .bind_right fun _ => .loop hc _ _

theorem Term.findTrak (hc : e.checked = true) (hf : Enough e) (s) : Term e (findTrak s) :=
  .bind (.findBounds _) fun _ => loop_term hc hf (contentLen_nf _ _) (Term.one (g := fun _ a => some a) (.findMdia hc hf))
    (Big.one (g := fun _ a => some a) hc (.findMdia hc)) _ _
theorem Big.findTrak (hc : e.checked = true) (s : Size) : Big e s.len (findTrak s) := .bind_right fun _ => .loop hc _ _

theorem Term.findMeta (hc : e.checked = true) (hf : Enough e) (s) : Term e (findMeta s) :=
  .bind (.findBounds _) fun _ => .bind .parseFullHead fun _ => .ite (.fail _) (loop_term hc hf (contentLen_nf _ _)
    (fun _ _ => .ite (.bind (.findLeaf _) fun _ => .pure _) (.ite (.bind (.findLeaf _) fun _ => .pure _)
      (.bind (.skipContent _) fun _ => .pure _)))
    (fun _ _ => .ite (Big.findLeaf hc _).bind_left (.ite (Big.findLeaf hc _).bind_left (Big.skipContent hc).bind_left)) _ _)
theorem Big.findMeta (hc : e.checked = true) (s : Size) : Big e s.len (findMeta s) :=
  .bind_right fun _ => .bind_right fun _ => .ite (.fail _) (.loop hc _ _)

theorem Term.findUdta (hc : e.checked = true) (hf : Enough e) (s) : Term e (findUdta s) :=
  .bind (.findBounds _) fun _ => loop_term hc hf (contentLen_nf _ _)
    (Term.one (g := fun (s : UdtaBounds) a => { s with meta? := some a }) (.findMeta hc hf))
    (Big.one (g := fun (s : UdtaBounds) a => { s with meta? := some a }) hc (.findMeta hc)) _ _
theorem Big.findUdta (hc : e.checked = true) (s : Size) : Big e s.len (findUdta s) := .bind_right fun _ => .loop hc _ _

theorem Term.findMoov (hc : e.checked = true) (hf : Enough e) (s) : Term e (findMoov s) :=
  .bind (.findBounds _) fun _ => loop_term hc hf (contentLen_nf _ _)
    (fun _ _ => .ite (.bind (.findTrak hc hf _) fun _ => .pure _) (.ite (.bind (.findUdta hc hf _) fun _ => .pure _)
      (.bind (.skipContent _) fun _ => .pure _)))
    (fun _ _ => .ite (Big.findTrak hc _).bind_left (.ite (Big.findUdta hc _).bind_left (Big.skipContent hc).bind_left)) _ _
theorem Big.findMoov (hc : e.checked = true) (s : Size) : Big e s.len (findMoov s) := .bind_right fun _ => .loop hc _ _

theorem Term.findTop (hc : e.checked = true) (hf : Enough e) : Term e findTop := by
  refine .bind .parseFtyp fun _ => .bind .remaining fun _ => .bind (loop_term hc hf (pure_nf _ _)
    (fun _ _ => .ite (.bind (.findMoov hc hf _) fun _ => .pure _) (.ite (.bind (.findLeaf _) fun _ => .pure _)
      (.bind (.skipContent _) fun _ => .pure _)))
    (fun _ _ => .ite (Big.findMoov hc _).bind_left (.ite (Big.findLeaf hc _).bind_left (Big.skipContent hc).bind_left)) _ _)
    fun s => ?_
  cases s.moov <;> first | exact .pure _ | exact .fail _

theorem E.bind_nf {α β} {m : E α} {f : α → E β} (h1 : m e ≠ .fuel) (h2 : ∀ a, f a e ≠ .fuel) : (m >>= f) e ≠ .fuel := by
  show Out.bind (m e) _ ≠ _
  unfold Out.bind
  split
  · exact h2 _
  · simp
  · simp
  · contradiction

theorem mkPlan_nf (m atoms) : mkPlan m atoms e ≠ .fuel := by
  obtain ⟨b, tr, u⟩ := m
  rcases u with _ | ⟨ub, _ | ⟨mb, hb, _ | ib⟩⟩ <;>
  · unfold mkPlan
    refine E.bind_nf ?_ fun _ => E.bind_nf ?_ fun _ => E.bind_nf ?_ fun _ => E.bind_nf (addI_nf _ _ _) fun _ => pure_nf _ _
    all_goals first
      | exact pure_nf _ _
      | exact E.bind_nf (end_nf _ _) fun _ => pure_nf _ _
      | exact E.bind_nf (end_nf _ _) fun _ => E.bind_nf (subI_nf _ _ _) fun _ => pure_nf _ _

theorem Term.preparePhase (hc : e.checked = true) (hf : Enough e) (atoms) : Term e (preparePhase atoms) :=
  .bind (.findTop hc hf) fun _ => .bind (.E (mkPlan_nf _ _)) fun _ => .bind .seekEnd fun _ =>
    .bind (.E (subU_nf _ _ _)) fun _ => .bind (.E (allocU8_nf _ _)) fun _ => .bind (.seekStart _) fun _ =>
    .bind (fun F p => by simp [readToEnd]) fun _ => .pure _

theorem Term.readTable (w) : ∀ n, Term e (readTable w n)
  | 0 => .pure _
  | n+1 => .bind (.readExact _) fun _ => .bind (Term.readTable w n) fun _ => .pure _

theorem Term.parseTable (w s) : Term e (parseTable w s) :=
  .bind .parseFullHead fun _ => .ite (.bind .readU32 fun _ => .bind (.E (contentLen_nf _ _)) fun _ => .ite (.fail _)
    (.bind .tellP fun _ => .bind (.readTable _ _) fun _ => .pure _)) (.fail _)

/-- Does not run out of iterations while writing to the file. -/
def WTerm {α} (e : Env) (m : W α) : Prop := ∀ s, (m e s).1 ≠ .fuel

theorem W.bind_apply {α β} (m : W α) (f : α → W β) (e s) :
    (m >>= f) e s = (match m e s with
      | (.ok a, s') => f a e s'
      | (.err k, s') => (.err k, s')
      | (.panic, s') => (.panic, s')
      | (.fuel, s') => (.fuel, s')) := rfl

theorem WTerm.bind {α β} {m : W α} {f : α → W β} (h1 : WTerm e m) (h2 : ∀ a, WTerm e (f a)) : WTerm e (m >>= f) := by
  intro s
  rw [W.bind_apply]
  have := h1 s
  split
  · exact h2 _ _
  · simp
  · simp
  · rename_i h; rw [h] at this; simp at this

theorem WTerm.pure {α} (a : α) : WTerm e (pure a : W α) := by intro s; show Out.ok a ≠ _; simp
theorem WTerm.E {α} {m : E α} (h : m e ≠ .fuel) : WTerm e m.w := fun _ => h
theorem WTerm.ite {α} {c : Prop} [Decidable c] {a b : W α} (h1 : WTerm e a) (h2 : WTerm e b) :
    WTerm e (if c then a else b) := by split <;> assumption
theorem WTerm.wWriteAll (b) : WTerm e (wWriteAll b) := by
  intro s; unfold Mp4.wWriteAll; split
  · simp
  · dsimp only; split <;> split <;> simp
theorem WTerm.wFlush : WTerm e wFlush := by intro s; simp [Mp4.wFlush]
theorem WTerm.wSeekStart (n) : WTerm e (wSeekStart n) := by intro s; unfold Mp4.wSeekStart; dsimp only; split <;> simp
theorem WTerm.wSeekCur (n) : WTerm e (wSeekCur n) := by intro s; unfold Mp4.wSeekCur; dsimp only; split <;> simp
theorem WTerm.wSetLen (n) : WTerm e (wSetLen n) := by intro s; unfold Mp4.wSetLen; split <;> simp
theorem WTerm.wAll {α} {f : α → W Unit} (h : ∀ a, WTerm e (f a)) : ∀ l, WTerm e (wAll f l)
  | [] => .pure _
  | x :: l => .bind (h x) fun _ => WTerm.wAll h l
theorem WTerm.wRead {α} {m : P α} (n) (h : Term e m) : WTerm e (wRead n m) := by
  intro s
  have := (Term.bind (.seekStart n) (fun _ => h)) s.file 0
  unfold Mp4.wRead
  dsimp only
  split
  · simp
  · simp
  · simp
  · rename_i h'; exact absurd h' this
theorem WTerm.wOpt {α} {f : α → W Unit} (h : ∀ a, WTerm e (f a)) (x) : WTerm e (wOpt f x) := by
  cases x with
  | none => exact .pure _
  | some a => exact h a

theorem WTerm.patchTable (w d a) : WTerm e (patchTable w d a) :=
  .bind (.E (addU_nf _ _ _)) fun _ => .bind (.wRead _ (.parseTable _ _)) fun _ => .bind (.wSeekStart _) fun _ =>
    .bind (.wAll (fun _ => .bind (.E (addI_nf _ _ _)) fun _ => .wWriteAll _) _) fun _ => .wFlush

theorem WTerm.patchHead (d a) : WTerm e (patchHead d a) :=
  .bind (.E (addI_nf _ _ _)) fun _ => .bind (.wSeekStart _) fun _ => .ite
    (.bind (.wWriteAll _) fun _ => .bind (.wSeekCur _) fun _ => .wWriteAll _) (.wWriteAll _)

/-- The outcome of a serialisation is not `fuel`. -/
def WrTerm {α} (e : Env) (m : Wr α) : Prop := (m e).2 ≠ .fuel

theorem WrTerm.E {α} {m : E α} (h : m e ≠ .fuel) : WrTerm e m.wr := h
theorem WrTerm.bind {α β} {m : Wr α} {f : α → Wr β} (h1 : WrTerm e m) (h2 : ∀ a, WrTerm e (f a)) : WrTerm e (m >>= f) := by
  show (Wr.bind m f e).2 ≠ _
  unfold Wr.bind
  split
  · exact h2 _
  · simp
  · simp
  · rename_i h; unfold WrTerm at h1; rw [h] at h1; simp at h1
theorem WrTerm.emit (b) : WrTerm e (emit b) := by simp [WrTerm, Mp4.emit]
theorem WrTerm.pure : WrTerm e (pure ()) := by show Out.ok () ≠ _; simp
theorem WrTerm.wrAll {α} {f : α → Wr Unit} (h : ∀ a, WrTerm e (f a)) : ∀ l, WrTerm e (wrAll f l)
  | [] => .pure
  | x :: l => .bind (h x) fun _ => WrTerm.wrAll h l
theorem WrTerm.wrOpt {α} {f : α → Wr Unit} (h : ∀ a, WrTerm e (f a)) (x) : WrTerm e (wrOpt f x) := by
  cases x with
  | none => exact .pure
  | some a => exact h a
theorem WrTerm.writeHead (h) : WrTerm e (writeHead h) := by
  unfold Mp4.writeHead
  split
  · exact .bind (.emit _) fun _ => .bind (.emit _) fun _ => .emit _
  · exact .bind (.emit _) fun _ => .emit _
theorem addU32_nf (a b e) : addU32 a b e ≠ .fuel := by unfold addU32; split <;> (try split) <;> simp
theorem WrTerm.writeRaw (d : Data) : WrTerm e d.writeRaw := by
  cases d <;> first | exact .emit _ | exact .wrAll (fun _ => .emit _) _
theorem WrTerm.writeDataAtom (d) : WrTerm e (writeDataAtom d) :=
  .bind (.E (addU32_nf _ _ _)) fun _ => .bind (.emit _) fun _ => .bind (.emit _) fun _ =>
    .bind (.emit _) fun _ => .bind (.emit _) fun _ => .writeRaw d
theorem WrTerm.writeStrAtom (f s) : WrTerm e (writeStrAtom f s) :=
  .bind (.E (addU32_nf _ _ _)) fun _ => .bind (.emit _) fun _ => .bind (.emit _) fun _ => .bind (.emit _) fun _ => .emit _
theorem WrTerm.atom (a : AtomData) : WrTerm e a.write := by
  refine .bind (.emit _) fun _ => ?_
  cases a.ident with
  | fourcc f => exact .bind (.emit _) fun _ => .wrAll .writeDataAtom _
  | freeform m n =>
    exact .bind (.emit _) fun _ => .bind (.writeStrAtom _ _) fun _ => .bind (.writeStrAtom _ _) fun _ =>
      .wrAll .writeDataAtom _
theorem WrTerm.writeIlst (a) : WrTerm e (writeIlst a) := .bind (.writeHead _) fun _ => .wrAll .atom _
theorem WrTerm.writeHdlr (a) : WrTerm e (writeHdlr a) := .bind (.writeHead _) fun _ => .emit _
theorem WrTerm.writeMeta (a) : WrTerm e (writeMeta a) :=
  .bind (.writeHead _) fun _ => .bind (WrTerm.bind (.emit _) fun _ => .emit _) fun _ =>
    .bind (.wrOpt .writeHdlr _) fun _ => .wrOpt .writeIlst _
theorem WrTerm.writeUdta (a) : WrTerm e (writeUdta a) := .bind (.writeHead _) fun _ => .wrOpt .writeMeta _
theorem WrTerm.newAtoms (p atoms) : WrTerm e (newAtomsWr p atoms) := by
  unfold newAtomsWr
  split
  · exact .writeUdta _
  · exact .writeMeta _
  · exact .bind (.wrOpt .writeHdlr _) fun _ => .writeIlst _

theorem WTerm.wEmit {m} (h : WrTerm e m) : WTerm e (wEmit m) := by
  intro s
  unfold Mp4.wEmit
  have := WTerm.wAll (e := e) WTerm.wWriteAll (m e).1 s
  dsimp only
  split
  · exact h
  · exact this

theorem WTerm.writePhase (mp mo p ol mv at') : WTerm e (writePhase mp mo p ol mv at') := by
  have h2 : WTerm e (do
      Mp4.wAll (Mp4.patchHead p.lenDiff) p.updateAtoms.reverse
      let n ← (addI (asI64 ol) p.lenDiff).w
      Mp4.wSetLen (asU64 n)
      Mp4.wSeekStart p.newAtomsStart
      Mp4.wEmit (newAtomsWr p at')
      let m ← (addI (asI64 p.movedDataStart) p.lenDiff).w
      Mp4.wSeekStart (asU64 m)
      Mp4.wWriteAll mv
      Mp4.wFlush) :=
    .bind (.wAll (.patchHead _) _) fun _ => .bind (.E (addI_nf _ _ _)) fun _ => .bind (.wSetLen _) fun _ =>
      .bind (.wSeekStart _) fun _ => .bind (.wEmit (.newAtoms _ _)) fun _ => .bind (.E (addI_nf _ _ _)) fun _ =>
      .bind (.wSeekStart _) fun _ => .bind (.wWriteAll _) fun _ => .wFlush
  unfold Mp4.writePhase
  split
  · exact .bind (.wAll (fun _ => .bind (.wOpt (.patchTable _ _) _) fun _ => .wOpt (.patchTable _ _) _) _) fun _ => h2
  · exact h2

theorem writeTagTo_nf (hc : e.checked = true) (hf : Enough e) (F p atoms) : (writeTagTo e F p atoms).1 ≠ .fuel := by
  have h := Term.preparePhase hc hf atoms F p
  unfold writeTagTo
  split
  · exact WTerm.writePhase _ _ _ _ _ _ _
  · simp
  · simp
  · contradiction

end Mp4
