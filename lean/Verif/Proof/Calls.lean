import Verif.Spec.Calls
import Verif.Proof.Reader
import Verif.Proof.SaneRead
/-
Counting the calls of a reader.

Each call costs one credit; each byte the position moves forward pays a fixed number of them (the potential `φ` of a position is what
can still be earned behind it).
-/
namespace Mp4
open Spec

theorem busy_succ (c : Sched) (n : Nat) : busy c (n + 1) = busy c n + (if c n = .intr then 0 else 1) := by
  have h : intrCount c n ≤ n := by
    unfold intrCount
    exact Nat.le_trans (List.length_filter_le _ _) (by simp)
  unfold busy
  rw [intrCount_succ]
  split <;> omega

theorem busy_call (c : Sched) (n : Nat) : busy c (n + 1) ≤ busy c n + 1 := by
  rw [busy_succ]; split <;> omega

section
variable {c : Sched} {e : Env} {F : Bytes} {φ ψ : Nat → Nat} {α β : Type} {p b : Nat}

/-- Started at `p` with `b` credits, `m` ends with `Q` (of the result, the position and the credits left), or stops early. -/
def Spend (c : Sched) (e : Env) (F : Bytes) (φ : Nat → Nat) (p b : Nat) (m : R α) (Q : α → Nat → Nat → Prop) : Prop :=
  ∀ t : RSt, t.pos = p → match m c e F t with
    | (.ok a, t') => ∃ b', busy c t'.tick + φ t'.pos + b' ≤ busy c t.tick + φ p + b ∧ Q a t'.pos b'
    | (_, t') => busy c t'.tick ≤ busy c t.tick + φ p + b

theorem Spend.bind {m : R α} {f : α → R β} {Q : α → Nat → Nat → Prop} {S : β → Nat → Nat → Prop} (h1 : Spend c e F φ p b m Q)
    (h2 : ∀ a q b', Q a q b' → Spend c e F φ q b' (f a) S) : Spend c e F φ p b (m >>= f) S := by
  intro t ht
  have h := h1 t ht
  show match R.bind m f c e F t with
    | (.ok a, t') => _
    | (_, t') => _
  unfold R.bind
  rcases hx : m c e F t with ⟨a | k | _ | _, t'⟩
  · rw [hx] at h
    obtain ⟨b', hb, hq⟩ := h
    have h' := h2 a _ b' hq t' rfl
    dsimp only
    rcases hy : f a c e F t' with ⟨a' | k | _ | _, t''⟩
    · rw [hy] at h'
      obtain ⟨b'', hb', hq'⟩ := h'
      exact ⟨b'', by omega, hq'⟩
    all_goals
      rw [hy] at h'
      dsimp only at h' ⊢
      omega
  all_goals
    rw [hx] at h
    exact h

theorem Spend.mono {m : R α} {Q S : α → Nat → Nat → Prop} (h : Spend c e F φ p b m Q) (hi : ∀ a q b', Q a q b' → S a q b') :
    Spend c e F φ p b m S := by
  intro t ht
  have h := h t ht
  rcases hx : m c e F t with ⟨a | k | _ | _, t'⟩ <;> rw [hx] at h
  · obtain ⟨b', h1, h2⟩ := h
    exact ⟨b', h1, hi _ _ _ h2⟩
  all_goals exact h

theorem Spend.pure {Q : α → Nat → Nat → Prop} {a : α} (h : Q a p b) : Spend c e F φ p b (pure a) Q := by
  rintro t rfl
  exact ⟨b, by omega, h⟩

theorem Spend.fail {Q : α → Nat → Nat → Prop} {k} : Spend c e F φ p b (failR k) Q := by
  rintro t rfl
  show busy c t.tick ≤ _
  omega

theorem Spend.outOfFuel {Q : α → Nat → Nat → Prop} : Spend c e F φ p b outOfFuelR Q := by
  rintro t rfl
  show busy c t.tick ≤ _
  omega

theorem Spend.ite {q : Prop} [Decidable q] {m m' : R α} {Q : α → Nat → Nat → Prop} (h1 : q → Spend c e F φ p b m Q)
    (h2 : ¬ q → Spend c e F φ p b m' Q) : Spend c e F φ p b (if q then m else m') Q := by
  split
  · exact h1 ‹_›
  · exact h2 ‹_›

theorem Spend.getFuel {Q : Nat → Nat → Nat → Prop} (h : Q e.fuel p b) : Spend c e F φ p b getFuelR Q := by
  rintro t rfl
  exact ⟨b, by omega, h⟩

/-- Arithmetic. -/
theorem Spend.E {m : E α} {Q : α → Nat → Nat → Prop} (h : ∀ a, m e = .ok a → Q a p b) : Spend c e F φ p b m.r Q := by
  rintro t rfl
  show match ((m e, t) : Out α × RSt) with
    | (.ok a, t') => _
    | (_, t') => _
  rcases hx : m e with a | k | _ | _ <;> dsimp only
  · exact ⟨b, by omega, h a hx⟩
  all_goals omega

theorem Spend.alloc {Q : Unit → Nat → Nat → Prop} {n : Nat} (h : Q () p b) : Spend c e F φ p b (allocR n) Q := by
  refine .bind (Q := fun _ q b' => p = q ∧ b = b') ?_ ?_
  · rintro t rfl
    exact ⟨b, by show busy c t.tick + φ t.pos + b ≤ _; omega, rfl, rfl⟩
  · rintro _ _ _ ⟨rfl, rfl⟩
    exact .E fun _ _ => h

/-! ### Calls -/

theorem Spend.seekIn {Q : Nat → Nat → Nat → Prop} {f : RSt → Nat} {r b' : Nat} (hf : ∀ s : RSt, s.pos = p → f s = r)
    (hb : φ r + b' + 1 ≤ φ p + b) (h : Q r r b') : Spend c e F φ p b (fun c e F s => seekInR (f s) c e F s) Q := by
  intro t ht
  unfold seekInR
  have := busy_call c t.tick
  dsimp only
  rw [hf t ht]
  rcases hc : c t.tick with n | _ | _ <;> dsimp only
  · exact ⟨b', by omega, h⟩
  all_goals omega

theorem Spend.tell {Q : Nat → Nat → Nat → Prop} {b' : Nat} (hb : b' + 1 ≤ b) (h : Q p p b') : Spend c e F φ p b tellR Q :=
  Spend.seekIn (f := fun s => s.pos) (fun _ h => h) (by omega) h

theorem Spend.seekEnd {Q : Nat → Nat → Nat → Prop} {b' : Nat} (hb : φ F.length + b' + 1 ≤ φ p + b) (h : Q F.length F.length b') :
    Spend c e F φ p b seekEndR Q := by
  have := Spend.seekIn (c := c) (e := e) (F := F) (f := fun _ => F.length) (fun _ _ => rfl) hb h
  exact this

theorem Spend.seek {Q : Nat → Nat → Nat → Prop} {x : Int} {b' : Nat} (h1 : 1 ≤ φ p + b)
    (h : ∀ r : Nat, (r : Int) = x → r ≤ e.maxPos → φ r + b' + 1 ≤ φ p + b ∧ Q r r b') :
    Spend c e F φ p b (seekR x) Q := by
  intro t ht
  unfold seekR
  have := busy_call c t.tick
  rcases hc : c t.tick with n | _ | _ <;> dsimp only
  · by_cases hx : 0 ≤ x ∧ x ≤ e.maxPos
    · rw [if_pos hx]
      obtain ⟨h2, h3⟩ := h x.toNat (by omega) (by omega)
      exact ⟨b', by dsimp only; omega, h3⟩
    · rw [if_neg hx]
      dsimp only
      omega
  all_goals omega

theorem Spend.seekCur {Q : Unit → Nat → Nat → Prop} {x : Int} {b' : Nat} (h1 : 1 ≤ φ p + b)
    (h : ∀ r : Nat, (r : Int) = p + x → r ≤ e.maxPos → φ r + b' + 1 ≤ φ p + b ∧ Q () r b') :
    Spend c e F φ p b (seekCurR x) Q := by
  intro t ht
  have := Spend.bind (c := c) (e := e) (F := F) (Spend.seek (Q := fun _ r b'' => Q () r b'') h1 h)
    (f := fun _ => Pure.pure ()) (S := Q) fun a q b' h => Spend.pure h
  subst ht
  exact this t rfl

theorem Spend.seekStart {Q : Unit → Nat → Nat → Prop} {x b' : Nat} (h1 : 1 ≤ φ p + b)
    (h : x ≤ e.maxPos → φ x + b' + 1 ≤ φ p + b ∧ Q () x b') : Spend c e F φ p b (seekStartR x) Q := by
  refine Spend.bind (Spend.seek (b' := b') (Q := fun _ r b'' => Q () r b'') h1 fun r hr hm => ?_) fun a q b' h => Spend.pure h
  have : r = x := by omega
  subst this
  exact h hm

/-- What `read_exact` costs: at most one call per byte, and one at the end of the data. -/
theorem readExactLoop_cost (c : Sched) (e : Env) (F : Bytes) : ∀ (f n : Nat) (acc : Bytes) (t : RSt),
    match readExactLoop f n acc c e F t with
    | (.ok a, t') => busy c t'.tick ≤ busy c t.tick + n ∧ t'.pos = t.pos + n ∧ (0 < n → t.pos + n ≤ F.length) ∧
        a = acc ++ (F.drop t.pos).take n
    | (_, t') => busy c t'.tick ≤ busy c t.tick + (F.length - t.pos) + 1 ∧ busy c t'.tick ≤ busy c t.tick + n
  | 0, n, acc, t => by
    show busy c t.tick ≤ _ ∧ busy c t.tick ≤ _
    omega
  | f+1, n, acc, t => by
    unfold readExactLoop
    by_cases hn : n = 0
    · rw [if_pos hn]
      subst hn
      exact ⟨by omega, rfl, fun h => absurd h (by omega), by simp⟩
    · rw [if_neg hn]
      have hc1 := busy_call c t.tick
      have hbl : ∀ k, ((F.drop t.pos).take (min (k + 1) n)).length = min (min (k + 1) n) (F.length - t.pos) := fun k => by
        rw [List.length_take, List.length_drop]
      rcases hc : c t.tick with k | _ | _ <;> dsimp only
      · by_cases he : ((F.drop t.pos).take (min (k + 1) n)).isEmpty
        · rw [if_pos he]
          dsimp only
          omega
        · rw [if_neg he]
          generalize hbd : (F.drop t.pos).take (min (k + 1) n) = bs at he
          have hl := hbl k
          rw [hbd] at hl
          have hpos : 0 < bs.length := by
            cases bs with
            | nil => simp at he
            | cons => simp
          have ih := readExactLoop_cost c e F f (n - bs.length) (acc ++ bs) { t with pos := t.pos + bs.length, tick := t.tick + 1 }
          rcases hx : readExactLoop f (n - bs.length) (acc ++ bs) c e F { t with pos := t.pos + bs.length, tick := t.tick + 1 } with
            ⟨a | k | _ | _, t'⟩
          · rw [hx] at ih
            dsimp only at ih ⊢
            obtain ⟨h1, h2, h3, h4⟩ := ih
            refine ⟨by omega, by omega, fun _ => ?_, ?_⟩
            · rcases Nat.eq_zero_or_pos (n - bs.length) with h0 | h0
              · omega
              · have := h3 h0; omega
            · rw [h4, List.append_assoc]
              congr 1
              have hbs : bs = (F.drop t.pos).take bs.length := by
                rw [hl, ← hbd, ← List.length_drop, ← List.take_eq_take_min]
              have hdd : F.drop (t.pos + bs.length) = (F.drop t.pos).drop bs.length := by rw [List.drop_drop]
              rw [hdd]
              have hn' : n = bs.length + (n - bs.length) := by omega
              conv => rhs; rw [hn', List.take_add]
              rw [← hbs]
          all_goals
            rw [hx] at ih
            dsimp only at ih ⊢
            omega
      · have ih := readExactLoop_cost c e F f n acc { t with tick := t.tick + 1 }
        have hz : busy c (t.tick + 1) = busy c t.tick := by rw [busy_succ, if_pos hc]; rfl
        dsimp only at ih
        rw [hz] at ih
        exact ih
      · omega

theorem Spend.readExact {Q : Bytes → Nat → Nat → Prop} {n b' : Nat} (hf : n ≤ φ p + b ∨ F.length - p + 1 ≤ φ p + b)
    (hb : (0 < n → p + n ≤ F.length) → φ (p + n) + b' + n ≤ φ p + b)
    (h : ∀ bs, bs.length = n → (0 < n → At F p bs) → Q bs (p + n) b') : Spend c e F φ p b (readExactR n) Q := by
  rintro t rfl
  have hc := readExactLoop_cost c e F e.fuel n [] t
  unfold readExactR
  rcases hx : readExactLoop e.fuel n [] c e F t with ⟨a | k | _ | _, t'⟩
  · rw [hx] at hc
    obtain ⟨h1, h2, h3, h4⟩ := hc
    have := hb h3
    refine ⟨b', by rw [h2]; omega, ?_⟩
    rw [h2]
    rw [List.nil_append] at h4
    subst h4
    refine h _ ?_ fun hn => At_take (h3 hn)
    rw [List.length_take, List.length_drop]
    rcases Nat.eq_zero_or_pos n with h0 | h0
    · omega
    · have := h3 h0; omega
  all_goals
    rw [hx] at hc
    dsimp only at hc ⊢
    omega

/-- What can be earned behind a position: `K` per byte. -/
structure Pot (F : Bytes) (K : Nat) (φ : Nat → Nat) : Prop where
  anti : ∀ p q, p ≤ q → φ q ≤ φ p
  pay : ∀ p n, p + n ≤ F.length → φ (p + n) + K * n ≤ φ p

theorem Pot.rest {K} (hφ : Pot F K φ) (p : Nat) : K * (F.length - p) ≤ φ p := by
  rcases Nat.lt_or_ge F.length p with h | h
  · rw [Nat.sub_eq_zero_of_le (by omega)]; exact Nat.zero_le _
  · have := hφ.pay p (F.length - p) (by omega)
    omega

/-- Reading earns all but one credit per byte. -/
theorem Spend.read {K} (hφ : Pot F (K + 1) φ) {Q : Bytes → Nat → Nat → Prop} {n : Nat} (h1 : 1 ≤ b)
    (h : ∀ bs, bs.length = n → (0 < n → At F p bs) → Q bs (p + n) (b + K * n)) : Spend c e F φ p b (readExactR n) Q := by
  refine Spend.readExact (.inr ?_) (fun hn => ?_) h
  · have := hφ.rest p
    rw [Nat.add_one_mul] at this
    omega
  · rcases Nat.eq_zero_or_pos n with h0 | h0
    · subst h0; simp only [Nat.add_zero]; omega
    · have := hφ.pay p n (hn h0)
      rw [Nat.add_one_mul] at this
      omega

/-- Without anything to earn, each byte costs a call. -/
theorem Spend.readFlat {Q : Bytes → Nat → Nat → Prop} {n : Nat} (h1 : n ≤ b)
    (h : ∀ bs, bs.length = n → (0 < n → At F p bs) → Q bs (p + n) (b - n)) : Spend c e F (fun _ => 0) p b (readExactR n) Q :=
  Spend.readExact (.inl (by omega)) (fun _ => by omega) h

/-- A part that is accounted for differently. -/
theorem Spend.lift {m : R α} {S : α → Nat → Nat → Prop} {Q : α → Nat → Nat → Prop} {n : Nat} (h : Spend c e F ψ p n m S)
    (hb : ψ p + n ≤ φ p + b)
    (hQ : ∀ a q b', S a q b' → ∃ b'', φ q + b'' + (ψ p + n) ≤ φ p + b + (ψ q + b') ∧ Q a q b'') : Spend c e F φ p b m Q := by
  intro t ht
  have h := h t ht
  rcases hx : m c e F t with ⟨a | k | _ | _, t'⟩ <;> rw [hx] at h
  · obtain ⟨b', h1, h2⟩ := h
    obtain ⟨b'', h3, h4⟩ := hQ _ _ _ h2
    exact ⟨b'', by omega, h4⟩
  all_goals
    dsimp only at h ⊢
    omega

/-! ### Heads -/

/-- The rest of the data. -/
theorem pot_rest (F : Bytes) (K : Nat) : Pot F K fun p => K * (F.length - p) := by
  refine ⟨fun p q h => Nat.mul_le_mul_left _ (by omega), fun p n h => ?_⟩
  rw [← Nat.mul_add]
  exact Nat.mul_le_mul_left _ (by omega)

theorem Spend.readU8 {K} (hφ : Pot F (K + 1) φ) {Q : UInt8 → Nat → Nat → Prop} (h1 : 1 ≤ b)
    (h : ∀ v, At F p [v] → Q v (p + 1) (b + K)) : Spend c e F φ p b readU8R Q := by
  refine .bind (.read (Q := fun bs q b' => bs.length = 1 ∧ At F p bs ∧ q = p + 1 ∧ b' = b + K) hφ h1
    fun bs h1 h2 => ⟨h1, h2 (by omega), rfl, by omega⟩) ?_
  rintro bs _ _ ⟨hl, hat, rfl, rfl⟩
  match bs, hl with
  | [v], _ => exact .pure (h v hat)

theorem Spend.readU32 {K} (hφ : Pot F (K + 1) φ) {Q : Nat → Nat → Nat → Prop} (h1 : 1 ≤ b)
    (h : ∀ v, v < 2^32 → At F p (be32 v) → Q v (p + 4) (b + K * 4)) : Spend c e F φ p b readU32R Q := by
  refine .bind (.read (Q := fun bs q b' => bs.length = 4 ∧ At F p bs ∧ q = p + 4 ∧ b' = b + K * 4) hφ h1
    fun bs h1 h2 => ⟨h1, h2 (by omega), rfl, rfl⟩) ?_
  rintro bs _ _ ⟨hl, hat, rfl, rfl⟩
  have hv := beNat_lt bs
  rw [hl] at hv
  exact .pure (h _ (by omega) (by rw [be32_beNat hl]; exact hat))

theorem Spend.readU64 {K} (hφ : Pot F (K + 1) φ) {Q : Nat → Nat → Nat → Prop} (h1 : 1 ≤ b)
    (h : ∀ v, v < 2^64 → At F p (be64 v) → Q v (p + 8) (b + K * 8)) : Spend c e F φ p b readU64R Q := by
  refine .bind (.read (Q := fun bs q b' => bs.length = 8 ∧ At F p bs ∧ q = p + 8 ∧ b' = b + K * 8) hφ h1
    fun bs h1 h2 => ⟨h1, h2 (by omega), rfl, rfl⟩) ?_
  rintro bs _ _ ⟨hl, hat, rfl, rfl⟩
  have hv := beNat_lt bs
  rw [hl] at hv
  exact .pure (h _ (by omega) (by rw [be64_beNat hl]; exact hat))

theorem Spend.fullHead {K} (hφ : Pot F (K + 1) φ) {Q : UInt8 × Bytes → Nat → Nat → Prop} (h1 : 1 ≤ b)
    (h : ∀ x b', b ≤ b' → Q x (p + 4) b') : Spend c e F φ p b parseFullHeadR Q := by
  refine .bind (.readU8 hφ (Q := fun v q b' => q = p + 1 ∧ b ≤ b') h1 fun v h1 => ⟨rfl, by omega⟩) ?_
  rintro v _ b1 ⟨rfl, hb1⟩
  refine .bind (.read hφ (Q := fun _ q b' => q = p + 1 + 3 ∧ b ≤ b') (by omega) fun v h1 h2 => ⟨rfl, by omega⟩) ?_
  rintro fl _ b2 ⟨rfl, hb2⟩
  exact .pure (h _ _ hb2)

/-- The head of an atom earns what is between its start and its end, less the calls. -/
theorem Spend.parseHead {K} (hφ : Pot F (K + 1) φ) {Q : Head → Nat → Nat → Prop} (h1 : 1 ≤ b)
    (h : ∀ hd b', HeadOf F p hd → φ (p + hd.size.headLen) + hd.size.headLen + b' = φ p + b → Q hd (p + hd.size.headLen) b') :
    Spend c e F φ p b parseHeadR Q := by
  have hψ := pot_rest F 1
  have key : Spend c e F (fun q => 1 * (F.length - q)) p 1 parseHeadR
      fun hd q b' => HeadOf F p hd ∧ q = p + hd.size.headLen ∧ b' = 1 := by
    refine .bind (.readU32 (K := 0) hψ (Q := fun v q b' => q = p + 4 ∧ v < 2^32 ∧ At F p (be32 v) ∧ b' = 1) (by omega)
      fun v h1 h2 => ⟨rfl, h1, h2, by omega⟩) ?_
    rintro len _ _ ⟨rfl, h1, h2, rfl⟩
    refine .bind (.read (K := 0) hψ (Q := fun b q b' => q = p + 4 + 4 ∧ b.length = 4 ∧ At F (p + 4) b ∧ b' = 1) (by omega)
      fun v h1 h2 => ⟨rfl, h1, h2 (by omega), by omega⟩) ?_
    rintro b _ _ ⟨rfl, h3, h4, rfl⟩
    rw [← four_bytes h3] at h4
    generalize (⟨b.getD 0 0, b.getD 1 0, b.getD 2 0, b.getD 3 0⟩ : Fourcc) = fc at h4 ⊢
    dsimp only
    have h24 : At F p (be32 len ++ fc.bytes) := At_append.mpr ⟨h2, h4⟩
    refine .ite (fun hl => ?_) fun hl => .ite (fun _ => .fail) fun h8 => .pure ?_
    · subst hl
      refine .bind (.readU64 (K := 0) hψ (Q := fun v q b' => q = p + 4 + 4 + 8 ∧ v < 2^64 ∧ At F (p + 4 + 4) (be64 v) ∧ b' = 1) (by omega)
        fun v h1 h2 => ⟨rfl, h1, h2, by omega⟩) ?_
      rintro l _ _ ⟨rfl, h5, h6, rfl⟩
      exact .pure ⟨⟨At_append.mpr ⟨h24, h6⟩, h5, by simp⟩, rfl, rfl⟩
    · exact ⟨⟨h24, h1, fun _ => by show 8 ≤ len; omega⟩, rfl, rfl⟩
  refine key.lift ?_ ?_
  · have := hφ.rest p
    rw [Nat.add_one_mul] at this
    omega
  · rintro hd _ _ ⟨hat, rfl, rfl⟩
    have hle := hat.le
    have := hφ.pay p _ hle
    rw [Nat.add_one_mul] at this
    refine ⟨φ p + b - φ (p + hd.size.headLen) - hd.size.headLen, by omega, h _ _ hat (by omega)⟩

/-- Conditions on the input: 64 bit sizes are sane. -/
structure SaneC (e : Env) (F : Bytes) : Prop where
  max : e.maxPos < 2^63
  len : F.length < 2^63
  sizes : SaneSizes F

theorem SaneC.size (hs : SaneC e F) {h : Head} (hh : HeadOf F p h) : h.size.headLen ≤ h.size.len ∧ h.size.len < 2^63 := by
  have hi := hh.headIn
  have h8 := hh.2.2
  have hl := hh.2.1
  rw [headLen_hlen]
  cases hx : h.size.ext with
  | true =>
    rw [hx] at hi
    exact hs.sizes _ _ _ hi
  | false =>
    rw [hx] at hl h8
    simp only [Bool.false_eq_true, if_false] at hl
    exact ⟨h8 rfl, by omega⟩

theorem headLen_ge (s : Size) : 8 ≤ s.headLen := by unfold Size.headLen; split <;> omega

theorem Spend.skipContent (hs : SaneC e F) {K} (hφ : Pot F K φ) {h : Head} {p0 : Nat} (hh : HeadOf F p0 h) {b' : Nat} (hb : b' + 1 ≤ b)
    {Q : Unit → Nat → Nat → Prop} (hQ : ∀ q, p ≤ q → Q () q b') : Spend c e F φ p b (skipContentR h) Q := by
  obtain ⟨h1, h2⟩ := hs.size hh
  refine .bind (.E (Q := fun n r b' => n < 2^63 ∧ p = r ∧ b = b') fun n hn => ?_) ?_
  · rw [contentLen_sane h1] at hn
    injection hn with hn
    exact ⟨by omega, rfl, rfl⟩
  rintro n _ _ ⟨hn, rfl, rfl⟩
  rw [asI64_small hn]
  refine .seekCur (b' := b') (by omega) fun r hr _ => ?_
  have := hφ.anti p r (by omega)
  exact ⟨by omega, hQ r (by omega)⟩

theorem Spend.findBounds {h : Head} {b' : Nat} (hb : b' + 1 ≤ b) {Q : AtomBounds → Nat → Nat → Prop}
    (hQ : Q ⟨p, h.size⟩ (p + h.size.headLen) b') : Spend c e F φ (p + h.size.headLen) b (findBoundsR h.size) Q := by
  refine .bind (.tell (Q := fun x q y => x = p + h.size.headLen ∧ q = p + h.size.headLen ∧ b' = y) hb ⟨rfl, rfl, rfl⟩) ?_
  rintro _ _ _ ⟨rfl, rfl, rfl⟩
  refine .bind (.E (Q := fun x q y => p = x ∧ q = p + h.size.headLen ∧ b' = y) fun x hx => ?_) ?_
  · unfold Mp4.subU at hx
    rw [if_pos (by omega)] at hx
    injection hx with hx
    exact ⟨by omega, rfl, rfl⟩
  rintro _ _ _ ⟨rfl, rfl, rfl⟩
  exact .pure hQ

/-- Without anything to earn: two calls. -/
theorem Spend.seekToEnd (hm : e.maxPos < 2^63) {x : AtomBounds} (h1 : x.pos + x.size.len < 2^64) (h2 : p < 2^63)
    (hb : 2 ≤ b) {Q : Unit → Nat → Nat → Prop} (hQ : Q () (x.pos + x.size.len) (b - 2)) :
    Spend c e F (fun _ => 0) p b (seekToEndR x) Q := by
  refine .bind (.tell (Q := fun n q y => p = n ∧ p = q ∧ y = b - 1) (by omega) ⟨rfl, rfl, rfl⟩) ?_
  rintro _ _ _ ⟨rfl, rfl, rfl⟩
  refine .bind (.E (Q := fun n q y => n = x.pos + x.size.len ∧ p = q ∧ y = b - 1) fun n hn => ?_) ?_
  · change Mp4.addU x.pos x.size.len e = .ok n at hn
    unfold Mp4.addU at hn
    rw [if_pos h1] at hn
    injection hn with hn
    exact ⟨hn.symm, rfl, rfl⟩
  rintro _ _ _ ⟨rfl, rfl, rfl⟩
  refine .bind (.E (Q := fun n q y => p = q ∧ y = b - 1 ∧ ((p ≤ x.pos + x.size.len ∧ n = x.pos + x.size.len - p) ∨
    (x.pos + x.size.len < p ∧ n = 2^64 + (x.pos + x.size.len) - p))) fun n hn => ?_) ?_
  · unfold Mp4.subU at hn
    split at hn
    · injection hn with hn
      exact ⟨rfl, rfl, .inl ⟨by assumption, hn.symm⟩⟩
    · split at hn
      · cases hn
      · injection hn with hn
        exact ⟨rfl, rfl, .inr ⟨by omega, by omega⟩⟩
  rintro n _ _ ⟨rfl, rfl, hc⟩
  refine .seekCur (b' := b - 2) (by omega) fun r hr hrm => ?_
  have : r = x.pos + x.size.len := by
    unfold asI64 at hr
    split at hr <;> omega
  subst this
  exact ⟨by omega, hQ⟩

/-! ### Loops -/

/-- What is done with an atom costs no more than its head earns. -/
def CBody (c : Sched) (e : Env) (F : Bytes) (φ : Nat → Nat) {σ} (handle : σ → Head → R σ) : Prop :=
  ∀ s h p b b', HeadOf F p h → 1 ≤ b → φ (p + h.size.headLen) + h.size.headLen + b' = φ p + b →
    Spend c e F φ (p + h.size.headLen) b' (handle s h) fun _ _ b'' => b ≤ b''

theorem walk_spend {K} (hφ : Pot F (K + 1) φ) {σ} {limit : E Nat} {handle : σ → Head → R σ} (hh : CBody c e F φ handle) :
    ∀ f s parsed p b, 1 ≤ b → Spend c e F φ p b (walkR limit handle f s parsed) fun _ _ b' => b ≤ b' := by
  intro f
  induction f with
  | zero => intro s parsed p b _; exact .outOfFuel
  | succ f ih =>
    intro s parsed p b hb
    rw [walkR]
    refine .bind (.E (Q := fun _ q b' => p = q ∧ b = b') fun _ _ => ⟨rfl, rfl⟩) ?_
    rintro lim _ _ ⟨rfl, rfl⟩
    refine .ite (fun hlt => ?_) fun _ => .pure (Nat.le_refl _)
    refine .bind (.parseHead hφ (Q := fun hd q b' => HeadOf F p hd ∧ q = p + hd.size.headLen ∧
      φ (p + hd.size.headLen) + hd.size.headLen + b' = φ p + b) hb fun hd b' h h' => ⟨h, rfl, h'⟩) ?_
    rintro hd _ b1 ⟨hat, rfl, hb1⟩
    refine .bind (hh s hd p b b1 hat hb hb1) fun s' q b2 hb2 => ?_
    refine .bind (.E (Q := fun _ r b' => q = r ∧ b2 = b') fun _ _ => ⟨rfl, rfl⟩) ?_
    rintro n _ _ ⟨rfl, rfl⟩
    exact (ih s' n q b2 (by omega)).mono fun _ _ _ h => by omega

theorem loop_spend {K} (hφ : Pot F (K + 1) φ) {σ} {limit : E Nat} {handle : σ → Head → R σ} (hh : CBody c e F φ handle)
    (s : σ) (parsed p b : Nat) (hb : 1 ≤ b) : Spend c e F φ p b (loopR limit handle s parsed) fun _ _ b' => b ≤ b' := by
  refine .bind (.getFuel (Q := fun _ q b' => p = q ∧ b = b') ⟨rfl, rfl⟩) ?_
  rintro f _ _ ⟨rfl, rfl⟩
  exact walk_spend hφ hh _ _ _ _ _ hb

/-- What a function does with the content of an atom costs no more than its head earns. -/
def CChild (c : Sched) (e : Env) (F : Bytes) (φ : Nat → Nat) {τ} (parse : Size → R τ) (fc : Fourcc) : Prop :=
  ∀ h p b b', HeadOf F p h → h.fourcc = fc → 1 ≤ b → φ (p + h.size.headLen) + h.size.headLen + b' = φ p + b →
    Spend c e F φ (p + h.size.headLen) b' (parse h.size) fun _ _ b'' => b ≤ b''

theorem head_gain {K} (hφ : Pot F (K + 1) φ) {h : Head} {b' : Nat} (hat : HeadOf F p h)
    (hb : φ (p + h.size.headLen) + h.size.headLen + b' = φ p + b) : b + 8 * K ≤ b' := by
  have := hφ.pay p _ hat.le
  have h8 := headLen_ge h.size
  have h8K : K * 8 ≤ K * h.size.headLen := Nat.mul_le_mul_left _ h8
  rw [Nat.add_one_mul] at this
  omega

theorem CChild.run {τ σ} {parse : Size → R τ} {fc : Fourcc} (hc : CChild c e F φ parse fc) (g : τ → σ) {h : Head} {b' : Nat}
    (hat : HeadOf F p h) (hf : h.fourcc = fc) (hb : 1 ≤ b) (hg : φ (p + h.size.headLen) + h.size.headLen + b' = φ p + b) :
    Spend c e F φ (p + h.size.headLen) b' (do let a ← parse h.size; Pure.pure (g a)) fun _ _ b'' => b ≤ b'' :=
  .bind (hc h p b b' hat hf hb hg) fun _ _ _ h => .pure h

theorem skip_spend (hs : SaneC e F) {K} (hφ : Pot F (K + 1 + 1) φ) {σ} (s : σ) {h : Head} {b' : Nat}
    (hat : HeadOf F p h) (hg : φ (p + h.size.headLen) + h.size.headLen + b' = φ p + b) :
    Spend c e F φ (p + h.size.headLen) b' (do skipContentR h; Pure.pure s) fun _ _ b'' => b ≤ b'' := by
  have := head_gain hφ hat hg
  exact .bind (.skipContent hs hφ hat (b' := b) (Q := fun _ _ b'' => b'' = b) (by omega) fun _ _ => rfl)
    fun _ _ _ h => .pure (by omega)

theorem CBody.one (hs : SaneC e F) {K} (hφ : Pot F (K + 1 + 1) φ) {τ σ} {parse : Size → R τ} {fc : Fourcc}
    (hc : CChild c e F φ parse fc) (g : σ → τ → σ) :
    CBody c e F φ fun s h => if h.fourcc = fc then do let a ← parse h.size; Pure.pure (g s a) else (do skipContentR h; Pure.pure s) :=
  fun s h p b b' hat hb hg => .ite (fun hf => hc.run (g s) hat hf hb hg) fun _ => skip_spend hs hφ s hat hg

theorem CBody.two (hs : SaneC e F) {K} (hφ : Pot F (K + 1 + 1) φ) {τ τ' σ} {parse : Size → R τ} {parse' : Size → R τ'} {fc fc' : Fourcc}
    (hc : CChild c e F φ parse fc) (hc' : CChild c e F φ parse' fc') (g : σ → τ → σ) (g' : σ → τ' → σ) :
    CBody c e F φ fun s h => if h.fourcc = fc then do let a ← parse h.size; Pure.pure (g s a)
      else if h.fourcc = fc' then do let a ← parse' h.size; Pure.pure (g' s a) else (do skipContentR h; Pure.pure s) :=
  fun s h p b b' hat hb hg => .ite (fun hf => hc.run (g s) hat hf hb hg) fun _ =>
    .ite (fun hf => hc'.run (g' s) hat hf hb hg) fun _ => skip_spend hs hφ s hat hg

end

end Mp4
