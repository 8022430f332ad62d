import Verif.Proof.AcceptRead
/-
With overflow checks a successful parse only depends on the bytes it passed over: it can be repeated anywhere else where the
same bytes are found.
-/
namespace Mp4
open Spec

/-- From `p` in `F` and from `p'` in `G` on, the same `n` bytes are found, as far as `F` has that many. -/
def Same (F : Bytes) (p : Nat) (G : Bytes) (p' n : Nat) : Prop := ∀ i, i < n → p + i < F.length → G[p' + i]? = F[p + i]?

/-- If `m` succeeds on `F` then it does not move backwards, and `m'` succeeds wherever the bytes passed over are found at a
distance `δ`, with a related result. -/
def LRel (e : Env) (F : Bytes) (δ : Int) {α β} (m : P α) (m' : P β) (R : α → β → Prop) : Prop :=
  ∀ (p : Nat) a q, 16 ≤ p + δ → m e F p = .ok (a, q) → p ≤ q ∧ ∃ b, R a b ∧ ∀ (G : Bytes) (p' : Nat), (p' : Int) = p + δ →
    p' + (q - p) ≤ e.maxPos → Same F p G p' (q - p) → m' e G p' = .ok (b, p' + (q - p))

/-- The same function in both places, with equal results. -/
def Here (e : Env) (F : Bytes) {α} (m : P α) : Prop := ∀ δ, LRel e F δ m m Eq

section
variable {e : Env} {F : Bytes} {δ : Int} {α β γ ε : Type}

theorem Same.left {p p' n m G} (h : Same F p G p' n) (hm : m ≤ n) : Same F p G p' m := fun i hi => h i (by omega)
theorem Same.right {p p' n k G} (h : Same F p G p' n) (hk : k ≤ n) : Same F (p + k) G (p' + k) (n - k) := fun i hi hl => by
  have := h (k + i) (by omega) (by omega)
  rwa [← Nat.add_assoc, ← Nat.add_assoc] at this

theorem LRel.bind {m : P α} {m' : P β} {f : α → P γ} {f' : β → P ε} {R S} (h1 : LRel e F δ m m' R)
    (h2 : ∀ a b, R a b → LRel e F δ (f a) (f' b) S) : LRel e F δ (m >>= f) (m' >>= f') S := by
  intro p c q h0 h
  obtain ⟨a, r, h3, h4⟩ := P.bind_inv h
  obtain ⟨hr, b, hb, g1⟩ := h1 p a r h0 h3
  obtain ⟨hq, d, hd, g2⟩ := h2 a b hb r c q (by omega) h4
  refine ⟨by omega, d, hd, fun G p' hp hmax hs => ?_⟩
  have hs2 := hs.right (k := r - p) (by omega)
  rw [show p + (r - p) = r by omega, show q - p - (r - p) = q - r by omega] at hs2
  rw [P.bind_ok (g1 G p' hp (by omega) (hs.left (by omega))), g2 G (p' + (r - p)) (by omega) (by omega) hs2,
    show p' + (r - p) + (q - r) = p' + (q - p) by omega]

theorem Here.bind {m : P α} {f : α → P β} (h1 : Here e F m) (h2 : ∀ a, Here e F (f a)) : Here e F (m >>= f) := fun δ =>
  .bind (h1 δ) fun a b h => h ▸ h2 a δ

theorem LRel.stay {m : P α} (h : ∀ p a q, m e F p = .ok (a, q) → p = q ∧ ∀ G p', m e G p' = .ok (a, p')) : Here e F m := by
  intro δ p a q _ h1
  obtain ⟨rfl, h2⟩ := h p a q h1
  exact ⟨Nat.le_refl _, a, rfl, fun G p' _ _ _ => by rw [h2]; simp⟩

theorem Here.pure (a : α) : Here e F (pure a) := LRel.stay fun p b q h => by
  obtain ⟨rfl, rfl⟩ := P.pure_inv h
  exact ⟨rfl, fun _ _ => rfl⟩
theorem Here.fail {k} : Here e F (fail k : P α) := fun _ _ _ _ _ h => absurd h P.fail_inv
theorem Here.outOfFuel : Here e F (outOfFuel : P α) := fun _ _ _ _ _ h => by cases h
theorem Here.getFuel : Here e F getFuel := LRel.stay fun p b q h => by cases h; exact ⟨rfl, fun _ _ => rfl⟩
theorem Here.E (m : Mp4.E α) : Here e F m.p := LRel.stay fun p b q h => by
  unfold E.p at h ⊢
  cases hm : m e <;> rw [hm] at h <;> cases h
  exact ⟨rfl, fun _ _ => rfl⟩
theorem Here.ite {c : Prop} [Decidable c] {a b : P α} (h1 : c → Here e F a) (h2 : ¬ c → Here e F b) : Here e F (if c then a else b) := by
  split
  · exact h1 (by assumption)
  · exact h2 (by assumption)

theorem LRel.ite {c : Prop} [Decidable c] {a b : P α} {a' b' : P β} {R} (h1 : c → LRel e F δ a a' R) (h2 : ¬ c → LRel e F δ b b' R) :
    LRel e F δ (if c then a else b) (if c then a' else b') R := by
  split
  · exact h1 (by assumption)
  · exact h2 (by assumption)

theorem Here.readExact (n : Nat) : Here e F (readExact n) := by
  intro δ p a q _ h
  unfold Mp4.readExact at h ⊢
  split at h
  · rename_i hn
    simp only [Out.ok.injEq, Prod.mk.injEq] at h
    obtain ⟨rfl, rfl⟩ := h
    refine ⟨by omega, _, rfl, fun G p' _ _ hs => ?_⟩
    rw [show p + n - p = n by omega] at hs ⊢
    rcases Nat.eq_zero_or_pos n with rfl | hpos
    · simp
    have hl : p + n ≤ F.length := by omega
    have hl' : p' + n ≤ G.length := by
      have := hs (n - 1) (by omega) (by omega)
      rw [List.getElem?_eq_getElem (by omega : p + (n - 1) < F.length)] at this
      have := (List.getElem?_eq_some_iff.mp this).1
      omega
    rw [if_pos (.inr hl')]
    have he : List.take n (List.drop p' G) = List.take n (List.drop p F) := by
      apply List.ext_getElem?
      intro i
      rw [List.getElem?_take, List.getElem?_take]
      split
      · rename_i hi
        rw [List.getElem?_drop, List.getElem?_drop]
        exact hs i hi (by omega)
      · rfl
    rw [he]
  · cases h

theorem Here.seekCur {n : Int} (hn : 0 ≤ n) : Here e F (seekCur n) := by
  intro δ p a q _ h
  unfold Mp4.seekCur at h ⊢
  split at h
  · rename_i hc
    simp only [Out.ok.injEq, Prod.mk.injEq, true_and] at h
    subst h
    refine ⟨by omega, (), rfl, fun G p' hp hmax _ => ?_⟩
    rw [if_pos (by omega)]
    have : ((p' : Int) + n).toNat = p' + (((p : Int) + n).toNat - p) := by omega
    rw [this]
  · cases h

/-- What a head can be in sane input. -/
def SizeOk (s : Size) : Prop := s.headLen ≤ s.len ∧ s.len < 2^63

/-- Bounds of the same atom in both places. -/
def BRel (δ : Int) (a b : AtomBounds) : Prop := (b.pos : Int) = a.pos + δ ∧ b.size = a.size

theorem LRel.findBounds (hc : e.checked = true) (s : Size) : LRel e F δ (findBounds s) (findBounds s) (BRel δ) := by
  intro p a q h0 h
  obtain ⟨cur, r, h1, h2⟩ := P.bind_inv h
  have h1' : cur = p ∧ r = p := by
    unfold tellP at h1; simp only [Out.ok.injEq, Prod.mk.injEq] at h1; omega
  rw [h1'.1, h1'.2] at h2
  obtain ⟨n, r2, h3, h4⟩ := P.bind_inv h2
  have hh : s.headLen ≤ 16 := by unfold Size.headLen; split <;> omega
  unfold E.p subU at h3
  by_cases hle : s.headLen ≤ p
  · simp only [if_pos hle, Out.ok.injEq, Prod.mk.injEq] at h3
    obtain ⟨rfl, rfl⟩ := h3
    obtain ⟨rfl, rfl⟩ := P.pure_inv h4
    refine ⟨Nat.le_refl _, ⟨((p : Int) + δ - s.headLen).toNat, s⟩, ⟨?_, rfl⟩, fun G p' hp _ _ => ?_⟩
    · show ((((p : Int) + δ - s.headLen).toNat : Nat) : Int) = ((p - s.headLen : Nat) : Int) + δ
      omega
    · unfold Mp4.findBounds
      rw [P.bind_ok (show tellP e G p' = .ok (p', p') from rfl), P.bind_ok (a := p' - s.headLen) (p' := p')
        (E.p_ok (by unfold subU; rw [if_pos (by omega)]) _ _)]
      have : p' - s.headLen = ((p : Int) + δ - s.headLen).toNat := by omega
      rw [this]; simp [P.pure_apply]
  · rw [if_neg hle, hc] at h3
    cases h3

theorem LRel.seekToEnd (hc : e.checked = true) (hm : e.maxPos < 2^63) {a b : AtomBounds} (h : BRel δ a b) :
    LRel e F δ (seekToEnd a) (seekToEnd b) Eq := by
  obtain ⟨hb1, hb2⟩ := h
  intro p u q h0 h
  obtain ⟨cur, r, h1, h2⟩ := P.bind_inv h
  have h1' : cur = p ∧ r = p := by
    unfold tellP at h1; simp only [Out.ok.injEq, Prod.mk.injEq] at h1; omega
  rw [h1'.1, h1'.2] at h2
  obtain ⟨en, r2, h3, h4⟩ := P.bind_inv h2
  unfold AtomBounds.end_ E.p addU at h3
  by_cases hlt : a.pos + a.size.len < 2^64
  · simp only [if_pos hlt, Out.ok.injEq, Prod.mk.injEq] at h3
    obtain ⟨rfl, rfl⟩ := h3
    obtain ⟨d, r3, h5, h6⟩ := P.bind_inv h4
    unfold E.p subU at h5
    by_cases hle : p ≤ a.pos + a.size.len
    · simp only [if_pos hle, Out.ok.injEq, Prod.mk.injEq] at h5
      obtain ⟨rfl, rfl⟩ := h5
      have hs : a.pos + a.size.len - p < 2^63 := by
        apply Decidable.byContradiction
        intro hge
        unfold seekCur asI64 at h6
        rw [if_neg hge, if_neg (by omega)] at h6
        cases h6
      rw [asI64_small hs] at h6
      unfold Mp4.seekCur at h6
      split at h6
      · simp only [Out.ok.injEq, Prod.mk.injEq, true_and] at h6
        subst h6
        refine ⟨by omega, (), rfl, fun G p' hp hmax _ => ?_⟩
        unfold Mp4.seekToEnd
        rw [P.bind_ok (show tellP e G p' = .ok (p', p') from rfl), P.bind_ok (a := b.pos + b.size.len) (p' := p')
          (E.p_ok (by unfold AtomBounds.end_ addU; rw [if_pos (by rw [hb2]; omega)]) _ _),
          P.bind_ok (a := b.pos + b.size.len - p') (p' := p')
          (E.p_ok (by unfold subU; rw [if_pos (by rw [hb2]; omega)]) _ _), asI64_small (by rw [hb2]; omega)]
        unfold seekCur
        rw [hb2, if_pos (by omega)]
        have : ((p' : Int) + ((b.pos + a.size.len - p' : Nat) : Int)).toNat =
          p' + (((p : Int) + ((a.pos + a.size.len - p : Nat) : Int)).toNat - p) := by omega
        rw [this]
      · cases h6
    · rw [if_neg hle, hc] at h5
      cases h5
  · rw [if_neg hlt, hc] at h3
    cases h3

/-! ### Values -/

theorem Here.readU8 : Here e F readU8 := .bind (.readExact _) fun _ => .pure _
theorem Here.readU16 : Here e F readU16 := .bind (.readExact _) fun _ => .pure _
theorem Here.readU32 : Here e F readU32 := .bind (.readExact _) fun _ => .pure _
theorem Here.readU64 : Here e F readU64 := .bind (.readExact _) fun _ => .pure _
theorem Here.readU8Vec (n) : Here e F (readU8Vec n) := .bind (.E _) fun _ => .readExact _
theorem Here.readUtf8 (n) : Here e F (readUtf8 n) := .bind (.readU8Vec _) fun _ => by
  split
  · exact .pure _
  · exact .fail
theorem Here.readUtf16 (n) : Here e F (readUtf16 n) := .bind (.E _) fun _ => .bind (.readExact _) fun _ => by
  split
  · exact .pure _
  · exact .fail
theorem Here.dataParse (t n) : Here e F (Data.parse t n) := by
  unfold Data.parse
  split
  · exact .bind (.readU8Vec _) fun _ => .pure _
  · exact .bind (.readUtf8 _) fun _ => .pure _
  · exact .bind (.readUtf16 _) fun _ => .pure _
  · exact .bind (.readU8Vec _) fun _ => .pure _
  · exact .bind (.readU8Vec _) fun _ => .pure _
  · exact .bind (.readU8Vec _) fun _ => .pure _
  · exact .bind (.readU8Vec _) fun _ => .pure _
  · exact .fail

theorem Here.parseHead : Here e F parseHead :=
  .bind .readU32 fun _ => .bind (.readExact _) fun _ => .ite (fun _ => .bind .readU64 fun _ => .pure _) fun _ =>
    .ite (fun _ => .fail) fun _ => .pure _
theorem Here.parseFullHead : Here e F parseFullHead := .bind .readU8 fun _ => .bind (.readExact _) fun _ => .pure _

/-- After a head its size is known to be sane. -/
theorem Here.head (hs : SaneB e F) {f : Head → P α} (h : ∀ hd, SizeOk hd.size → Here e F (f hd)) : Here e F (Mp4.parseHead >>= f) := by
  intro δ
  refine .bind (R := fun a b => a = b ∧ SizeOk a.size) ?_ ?_
  · intro p a q h0 h1
    obtain ⟨h2, b, rfl, h3⟩ := Here.parseHead δ p a q h0 h1
    have hat : HeadOf F p a := Par.parseHead (e := e) (Q := fun hd _ => HeadOf F p hd) (fun _ h => h) _ _ h1
    exact ⟨h2, a, ⟨rfl, hs.size hat⟩, h3⟩
  · rintro a _ ⟨rfl, hz⟩
    exact h a hz δ

theorem Here.skipContent {h : Head} (hz : SizeOk h.size) : Here e F (skipContent h) := by
  unfold Mp4.skipContent
  rw [show h.size.contentLen.p = (h.size.contentLen.p : P Nat) from rfl]
  intro δ
  refine .bind (R := fun a b => a = b ∧ a < 2^63) ?_ ?_
  · intro p a q h0 h1
    obtain ⟨h2, b, rfl, h3⟩ := Here.E h.size.contentLen δ p a q h0 h1
    refine ⟨h2, a, ⟨rfl, ?_⟩, h3⟩
    rw [E.p_ok (contentLen_sane hz.1)] at h1
    simp only [Out.ok.injEq, Prod.mk.injEq] at h1
    have := hz.2
    omega
  · rintro a _ ⟨rfl, hl⟩
    rw [asI64_small hl]
    exact Here.seekCur (Int.natCast_nonneg _) δ

theorem Here.walk (hs : SaneB e F) {σ} {limit : Mp4.E Nat} {handle : σ → Head → P σ} (hh : ∀ s h, SizeOk h.size → Here e F (handle s h)) :
    ∀ f s parsed, Here e F (walk limit handle f s parsed)
  | 0, _, _ => .outOfFuel
  | f+1, s, parsed => by
    unfold Mp4.walk
    exact .bind (.E _) fun _ => .ite (fun _ => .head hs fun hd hz => .bind (hh s hd hz) fun _ => .bind (.E _) fun _ => .walk hs hh f _ _) fun _ => .pure _

theorem Here.loop (hs : SaneB e F) {σ} {limit : Mp4.E Nat} {handle : σ → Head → P σ} (hh : ∀ s h, SizeOk h.size → Here e F (handle s h)) (s parsed) :
    Here e F (loop limit handle s parsed) := .bind .getFuel fun _ => .walk hs hh _ _ _

theorem Here.one {σ τ} {fc : Fourcc} {parse : Size → P τ} {g : σ → τ → σ} (h : ∀ s, Here e F (parse s)) (s : σ) (hd : Head) (hz : SizeOk hd.size) :
    Here e F (if hd.fourcc = fc then do let a ← parse hd.size; Pure.pure (g s a) else do Mp4.skipContent hd; Pure.pure s) :=
  .ite (fun _ => .bind (h _) fun _ => .pure _) fun _ => .bind (.skipContent hz) fun _ => .pure _

/-- A function that ends with `seek_to_end`. -/
theorem Here.toEnd (hc : e.checked = true) {s : Size} {f : AtomBounds → P α} (h : ∀ δ a b, BRel δ a b → LRel e F δ (f a) (f b) Eq) :
    Here e F (Mp4.findBounds s >>= f) := fun δ => .bind (.findBounds hc s) fun a b hab => h δ a b hab

theorem LRel.loc {m : P α} {f f' : α → P β} {R} (h1 : Here e F m) (h2 : ∀ a, LRel e F δ (f a) (f' a) R) : LRel e F δ (m >>= f) (m >>= f') R :=
  .bind (h1 δ) fun a b h => h ▸ h2 a

theorem LRel.last (hc : e.checked = true) (hm : e.maxPos < 2^63) {a b : AtomBounds} (h : BRel δ a b) (x : α) :
    LRel e F δ (do Mp4.seekToEnd a; Pure.pure x) (do Mp4.seekToEnd b; Pure.pure x) Eq :=
  .bind (.seekToEnd hc hm h) fun _ _ _ => Here.pure x δ

theorem Here.parseMvhd (hc : e.checked = true) (hm : e.maxPos < 2^63) (s) : Here e F (parseMvhd s) :=
  .toEnd hc fun _ _ _ h => .loc .parseFullHead fun _ => .ite (fun _ =>
      .loc (.seekCur (by decide)) fun _ => .loc .readU32 fun _ => .loc .readU32 fun _ => .loc (.E _) fun _ => .loc (.E _) fun _ => .last hc hm h _) fun _ =>
    .ite (fun _ => .loc (.seekCur (by decide)) fun _ => .loc .readU32 fun _ => .loc .readU64 fun _ => .loc (.E _) fun _ => .loc (.E _) fun _ => .last hc hm h _) fun _ =>
    Here.fail _

/-! ### Audio -/

/-- A fact about the result may be used in what follows. -/
theorem Here.known {m : P α} {f : α → P β} (Q : α → Prop) (h1 : Here e F m) (hq : ∀ p a q, m e F p = .ok (a, q) → Q a)
    (h2 : ∀ a, Q a → Here e F (f a)) : Here e F (m >>= f) := by
  intro δ
  refine .bind (R := fun a b => a = b ∧ Q a) ?_ ?_
  · intro p a q h0 h
    obtain ⟨h3, b, rfl, h4⟩ := h1 δ p a q h0 h
    exact ⟨h3, a, ⟨rfl, hq p a q h⟩, h4⟩
  · rintro a _ ⟨rfl, ha⟩
    exact h2 a ha δ

theorem Here.descHeadLoop : ∀ k h l, Here e F (descHeadLoop k h l)
  | 0, _, _ => .pure _
  | k+1, h, l => by
    unfold Mp4.descHeadLoop
    exact .bind .readU8 fun _ => .ite (fun _ => .pure _) fun _ => .descHeadLoop k _ _

theorem descHeadLoop_lt : ∀ k h l p a q, Mp4.descHeadLoop k h l e F p = .ok (a, q) → a.2 < (l + 1) * 128 ^ k
  | 0, h, l, p, a, q, hr => by
    obtain ⟨rfl, -⟩ := P.pure_inv hr
    show l < _; omega
  | k+1, h, l, p, a, q, hr => by
    unfold Mp4.descHeadLoop at hr
    obtain ⟨b, r, -, h2⟩ := P.bind_inv hr
    have hb : l * 128 + b.toNat % 128 + 1 ≤ (l + 1) * 128 := by omega
    have hm : (l * 128 + b.toNat % 128 + 1) * 128 ^ k ≤ (l + 1) * 128 ^ (k + 1) := by
      rw [Nat.pow_succ', ← Nat.mul_assoc]
      exact Nat.mul_le_mul_right _ hb
    rw [P.if_apply] at h2
    split at h2
    · obtain ⟨rfl, -⟩ := P.pure_inv h2
      have : (l * 128 + b.toNat % 128 + 1) * 1 ≤ (l * 128 + b.toNat % 128 + 1) * 128 ^ k := Nat.mul_le_mul_left _ (Nat.pow_pos (by decide))
      show l * 128 + b.toNat % 128 < _
      omega
    · have := descHeadLoop_lt k _ _ r a q h2
      omega

theorem Here.parseDescHead : Here e F parseDescHead := .bind .readU8 fun _ => .bind (.descHeadLoop _ _ _) fun _ => .pure _

theorem parseDescHead_lt (p a q) (h : Mp4.parseDescHead e F p = .ok (a, q)) : a.2.2 < 2^63 := by
  obtain ⟨t, r, -, h2⟩ := P.bind_inv h
  obtain ⟨⟨n, l⟩, r2, h3, h4⟩ := P.bind_inv h2
  obtain ⟨rfl, -⟩ := P.pure_inv h4
  have := descHeadLoop_lt _ _ _ _ _ _ h3
  show l < _
  have : (0 + 1) * 128 ^ 4 < 2^63 := by decide
  dsimp only at *
  omega

theorem Here.parseDsDesc (hc : e.checked = true) (i : Mp4a) {n : Nat} (hn : n < 2^63) : Here e F (parseDsDesc i n) :=
  .bind .readU16 fun _ => .known (fun m => m < 2^63) (.E _) (fun p a q h => by
    unfold E.p subU at h
    by_cases hle : 2 ≤ n
    · simp only [if_pos hle, Out.ok.injEq, Prod.mk.injEq] at h; omega
    · rw [if_neg hle, hc] at h; cases h) fun m hm => .bind (by rw [asI64_small hm]; exact .seekCur (Int.natCast_nonneg _)) fun _ => .pure _

theorem Here.descWalk {wanted : UInt8} {handle : Mp4a → Nat → P Mp4a} {limit : Nat} (hh : ∀ i n, n < 2^63 → Here e F (handle i n)) :
    ∀ f i parsed, Here e F (descWalk wanted handle limit f i parsed)
  | 0, _, _ => .outOfFuel
  | f+1, i, parsed => by
    unfold Mp4.descWalk
    refine .ite (fun _ => .known (fun x => x.2.2 < 2^63) .parseDescHead parseDescHead_lt fun x hx => ?_) fun _ => .pure _
    obtain ⟨tag, hl, dl⟩ := x
    exact .bind (.ite (fun _ => hh _ _ hx) fun _ => .bind (by rw [asI64_small hx]; exact .seekCur (Int.natCast_nonneg _)) fun _ => .pure _) fun _ =>
      .bind (.E _) fun _ => .bind (.E _) fun _ => .descWalk hh f _ _

theorem Here.parseDcDesc (hc : e.checked = true) (i n) : Here e F (parseDcDesc i n) :=
  .bind (.seekCur (by decide)) fun _ => .bind .readU32 fun _ => .bind .readU32 fun _ => .bind .getFuel fun _ =>
    .descWalk (fun _ _ h => .parseDsDesc hc _ h) _ _ _
theorem Here.parseEsDesc (hc : e.checked = true) (i n) : Here e F (parseEsDesc i n) :=
  .bind (.seekCur (by decide)) fun _ => .bind .getFuel fun _ => .descWalk (fun _ _ _ => .parseDcDesc hc _ _) _ _ _
theorem Here.parseEsds (hc : e.checked = true) (i s) : Here e F (parseEsds i s) :=
  .bind .parseFullHead fun _ => .ite (fun _ => .fail) fun _ => .bind .parseDescHead fun _ => .ite (fun _ => .fail) fun _ =>
    .bind (.E _) fun _ => .bind (.E _) fun _ => .bind (.E _) fun _ => .parseEsDesc hc _ _
theorem Here.parseMp4a (hc : e.checked = true) (hm : e.maxPos < 2^63) (s) : Here e F (parseMp4a s) :=
  .toEnd hc fun _ _ _ h => .loc (.seekCur (by decide)) fun _ => .loc .parseHead fun _ => .ite (fun _ => Here.fail _) fun _ =>
    .loc (.parseEsds hc _ _) fun _ => .last hc hm h _

theorem Here.parseStsd (hc : e.checked = true) (hs : SaneB e F) (s) : Here e F (parseStsd s) :=
  .bind .parseFullHead fun _ => .ite (fun _ => .fail) fun _ => .bind (.seekCur (by decide)) fun _ =>
    .loop hs (Here.one (g := fun _ a => some a) (.parseMp4a hc hs.max)) _ _
theorem Here.parseStbl (hc : e.checked = true) (hs : SaneB e F) (s) : Here e F (parseStbl s) := .loop hs (Here.one (g := fun _ a => some a) (.parseStsd hc hs)) _ _
theorem Here.parseMinf (hc : e.checked = true) (hs : SaneB e F) (s) : Here e F (parseMinf s) := .loop hs (Here.one (g := fun _ a => some a) (.parseStbl hc hs)) _ _
theorem Here.parseMdia (hc : e.checked = true) (hs : SaneB e F) (s) : Here e F (parseMdia s) := .loop hs (Here.one (g := fun _ a => some a) (.parseMinf hc hs)) _ _
theorem Here.parseTrak (hc : e.checked = true) (hs : SaneB e F) (s) : Here e F (parseTrak s) := .loop hs (Here.one (g := fun _ a => some a) (.parseMdia hc hs)) _ _

/-! ### Items -/

theorem Here.itemHandle (s : ItemSt) (h : Head) (hz : SizeOk h.size) : Here e F (itemHandle s h) :=
  .ite (fun _ => .bind .parseFullHead fun _ => .ite (fun _ => .fail) fun _ => .bind (.seekCur (by decide)) fun _ => .bind (.E _) fun _ => .bind (.E _) fun _ =>
    .bind (.dataParse _ _) fun _ => .pure _) fun _ =>
  .ite (fun _ => .bind .parseFullHead fun _ => .ite (fun _ => .fail) fun _ => .bind (.E _) fun _ => .bind (.E _) fun _ => .bind (.readUtf8 _) fun _ => .pure _) fun _ =>
  .ite (fun _ => .bind .parseFullHead fun _ => .ite (fun _ => .fail) fun _ => .bind (.E _) fun _ => .bind (.E _) fun _ => .bind (.readUtf8 _) fun _ => .pure _) fun _ =>
  .bind (.skipContent hz) fun _ => .pure _
theorem Here.parseItem (hs : SaneB e F) (fc n) : Here e F (parseItem fc n) :=
  .bind (.loop hs .itemHandle _ _) fun _ => .ite (fun _ => .fail) fun _ => .pure _
theorem Here.parseIlst (hs : SaneB e F) (s) : Here e F (parseIlst s) :=
  .loop hs (fun _ _ hz => .ite (fun _ => .bind (.skipContent hz) fun _ => .pure _) fun _ => .bind (.E _) fun _ => .bind (.parseItem hs _ _) fun _ => .pure _) _ _
theorem Here.parseMeta (hs : SaneB e F) (s) : Here e F (parseMeta s) :=
  .bind .parseFullHead fun _ => .ite (fun _ => .fail) fun _ => .loop hs (Here.one (g := fun _ a => some a) (.parseIlst hs)) _ _
theorem Here.parseUdta (hs : SaneB e F) (s) : Here e F (parseUdta s) := .loop hs (Here.one (g := fun _ a => some a) (.parseMeta hs)) _ _
theorem Here.parseMoov (hc : e.checked = true) (hs : SaneB e F) (s) : Here e F (parseMoov s) :=
  .loop hs (fun _ _ hz => .ite (fun _ => .bind (.parseMvhd hc hs.max _) fun _ => .pure _) fun _ => .ite (fun _ => .bind (.parseTrak hc hs _) fun _ => .pure _) fun _ =>
    .ite (fun _ => .bind (.parseUdta hs _) fun _ => .pure _) fun _ => .bind (.skipContent hz) fun _ => .pure _) _ _

end
end Mp4
