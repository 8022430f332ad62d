import Verif.Proof.Fail
import Verif.Proof.ReadAudio
import Verif.Spec.Sane
/-
Arbitrary input with sane 64 bit sizes: every loop makes progress, and what panics are left.
-/
namespace Mp4
open Spec

/-- Ends with an error, or with a result for which `Q` holds; panics only if `pn`. -/
def Tot {α} (pn : Prop) (e : Env) (F : Bytes) (p : Nat) (m : P α) (Q : α → Nat → Prop) : Prop :=
  match m e F p with
  | .ok (a, q) => Q a q
  | .err _ => True
  | .panic => pn
  | .fuel => False

/-- What is assumed: sane sizes, an addressable file, and loops may run at least as often as the file has bytes. -/
structure SaneB (e : Env) (F : Bytes) : Prop where
  fit : Fit e F
  max : e.maxPos < 2^63
  sizes : SaneSizes F

/-- In addition, unless panics are accepted: no atom is too short for its fields, and no header makes the arithmetic overflow. -/
structure Sane (pn : Prop) (e : Env) (F : Bytes) : Prop extends SaneB e F where
  trap : ¬ pn → NoTrap F
  ovf : e.checked = true → ¬ pn → NoOverflow F

section
variable {α β : Type} {pn : Prop} {e : Env} {F : Bytes} {p : Nat}

theorem Tot.bind {m : P α} {f : α → P β} {Q : α → Nat → Prop} {R : β → Nat → Prop} (h1 : Tot pn e F p m Q)
    (h2 : ∀ a q, Q a q → Tot pn e F q (f a) R) : Tot pn e F p (m >>= f) R := by
  unfold Tot at h1 ⊢
  rw [P.bind_apply]
  cases hm : m e F p with
  | ok x => obtain ⟨a, q⟩ := x; rw [hm] at h1; exact h2 a q h1
  | err k => trivial
  | panic => rw [hm] at h1; exact h1
  | fuel => rw [hm] at h1; exact h1

theorem Tot.mono {m : P α} {Q R : α → Nat → Prop} (h : Tot pn e F p m Q) (hi : ∀ a q, Q a q → R a q) :
    Tot pn e F p m R := by
  unfold Tot at h ⊢
  split <;> rename_i hm <;> rw [hm] at h
  · exact hi _ _ h
  · trivial
  · exact h
  · exact h

theorem Tot.pure {Q : α → Nat → Prop} {a : α} (h : Q a p) : Tot pn e F p (pure a) Q := h
theorem Tot.fail {Q : α → Nat → Prop} {k} : Tot pn e F p (fail k) Q := trivial
theorem Tot.ite {c : Prop} [Decidable c] {a b : P α} {Q : α → Nat → Prop} (h1 : c → Tot pn e F p a Q)
    (h2 : ¬ c → Tot pn e F p b Q) : Tot pn e F p (if c then a else b) Q := by
  split
  · exact h1 (by assumption)
  · exact h2 (by assumption)
theorem Tot.getFuel {Q : Nat → Nat → Prop} (h : Q e.fuel p) : Tot pn e F p getFuel Q := h
theorem Tot.tell {Q : Nat → Nat → Prop} (h : Q p p) : Tot pn e F p tellP Q := h
theorem Tot.seekEnd {Q : Nat → Nat → Prop} (h : Q F.length F.length) : Tot pn e F p seekEnd Q := h

theorem Tot.readExact {Q : Bytes → Nat → Prop} {n : Nat}
    (h : n = 0 ∨ p + n ≤ F.length → Q ((F.drop p).take n) (p + n)) : Tot pn e F p (readExact n) Q := by
  unfold Tot Mp4.readExact
  split <;> rename_i hm <;> split at hm <;> first | trivial | simp at hm
  obtain ⟨rfl, rfl⟩ := hm
  exact h (by assumption)

theorem Tot.seekCur {Q : Unit → Nat → Prop} {n : Int}
    (h : ∀ q : Nat, (q : Int) = p + n → q ≤ e.maxPos → Q () q) : Tot pn e F p (seekCur n) Q := by
  unfold Tot Mp4.seekCur
  split <;> rename_i hm <;> split at hm <;> first | trivial | simp at hm
  subst hm
  exact h _ (by omega) (by omega)

theorem Tot.seekStart {Q : Unit → Nat → Prop} {n : Nat} (h : n ≤ e.maxPos → Q () n) :
    Tot pn e F p (seekStart n) Q := by
  unfold Tot Mp4.seekStart
  split <;> rename_i hm <;> split at hm <;> first | trivial | simp at hm
  subst hm
  exact h (by assumption)

theorem Tot.E {m : E α} {Q : α → Nat → Prop} {a : α} (hm : m e = .ok a) (h : Q a p) : Tot pn e F p m.p Q := by
  unfold Tot
  rw [E.p_ok hm]
  exact h

theorem Tot.subU {Q : Nat → Nat → Prop} {a b : Nat} (h1 : b ≤ a → Q (a - b) p) (h2 : a < b → e.checked = true → pn)
    (h3 : a < b → e.checked = false → Q (2^64 + a - b) p) : Tot pn e F p (subU a b).p Q := by
  unfold Tot E.p Mp4.subU
  by_cases h : b ≤ a
  · simp only [if_pos h]; exact h1 h
  · simp only [if_neg h]
    cases hc : e.checked with
    | true => simp only [if_true]; exact h2 (by omega) hc
    | false => simp only [Bool.false_eq_true, if_false]; exact h3 (by omega) hc

theorem Tot.addU {Q : Nat → Nat → Prop} {a b : Nat} (h : a + b < 2^64) (h1 : Q (a + b) p) :
    Tot pn e F p (addU a b).p Q := .E (by rw [Mp4.addU, if_pos h]) h1

theorem Tot.mulU {Q : Nat → Nat → Prop} {a b : Nat} (h2 : 2^64 ≤ a * b → e.checked = true → pn) (h : ∀ n, Q n p) :
    Tot pn e F p (mulU a b).p Q := by
  unfold Tot E.p Mp4.mulU
  by_cases hl : a * b < 2^64
  · simp only [if_pos hl]; exact h _
  · simp only [if_neg hl]
    cases hc : e.checked with
    | true => simp only [if_true]; exact h2 (by omega) hc
    | false => simp only [Bool.false_eq_true, if_false]; exact h _

theorem Tot.divU {Q : Nat → Nat → Prop} {a b : Nat} (h2 : b = 0 → pn) (h : ∀ n, Q n p) :
    Tot pn e F p (divU a b).p Q := by
  unfold Tot E.p Mp4.divU
  by_cases hl : b = 0
  · simp only [if_pos hl]; exact h2 hl
  · simp only [if_neg hl]; exact h _

theorem Tot.alloc {Q : Unit → Nat → Prop} {n : Nat} (h2 : 2^63 ≤ n → pn) (h : n < 2^63 → Q () p) :
    Tot pn e F p (allocU8 n).p Q := by
  unfold Tot E.p Mp4.allocU8
  by_cases hl : 2^63 ≤ n
  · simp only [if_pos hl]; exact h2 hl
  · simp only [if_neg hl]; exact h (by omega)

/-! ### Values -/

theorem Tot.readU8 {Q : UInt8 → Nat → Prop} (h : ∀ v, At F p [v] → Q v (p + 1)) : Tot pn e F p readU8 Q := by
  refine .bind (.readExact fun hl => ?_) fun b q hq => .pure hq
  refine h _ ?_
  have hl : p + 1 ≤ F.length := by omega
  have h1 : ((F.drop p).take 1).length = 1 := by rw [List.length_take, List.length_drop]; omega
  refine ⟨hl, ?_⟩
  match hb : (F.drop p).take 1, h1 with
  | [x], _ => rfl

theorem At_take {n : Nat} (h : p + n ≤ F.length) : At F p ((F.drop p).take n) := by
  have : ((F.drop p).take n).length = n := by rw [List.length_take, List.length_drop]; omega
  exact ⟨by omega, by rw [this]⟩

theorem Tot.readN {Q : Bytes → Nat → Prop} {n : Nat} (hn : 0 < n) (h : ∀ b, b.length = n → At F p b → Q b (p + n)) :
    Tot pn e F p (Mp4.readExact n) Q :=
  .readExact fun hl => h _ (by rw [List.length_take, List.length_drop]; omega) (At_take (by omega))

theorem be32_beNat {b : Bytes} (h : b.length = 4) : be32 (beNat b) = b := by
  rw [← toBe_four, ← h, toBe_beNat]
theorem be64_beNat {b : Bytes} (h : b.length = 8) : be64 (beNat b) = b := by
  rw [← toBe_eight, ← h, toBe_beNat]

theorem Tot.readU16 {Q : Nat → Nat → Prop} (h : ∀ v, p + 2 ≤ F.length → Q v (p + 2)) : Tot pn e F p readU16 Q :=
  .bind (.readN (Q := fun b q => Q (beNat b) q) (by decide) fun b hb hat => h _ (by have := hat.le; omega))
    fun _ _ hq => .pure hq

theorem Tot.readU32 {Q : Nat → Nat → Prop} (h : ∀ v, v < 2^32 → At F p (be32 v) → Q v (p + 4)) :
    Tot pn e F p readU32 Q :=
  .bind (.readN (Q := fun b q => Q (beNat b) q) (by decide) fun b hb hat => h _ (by have := beNat_lt_pow b; rw [hb] at this; exact this)
    (by rw [be32_beNat hb]; exact hat)) fun _ _ hq => .pure hq

theorem Tot.readU64 {Q : Nat → Nat → Prop} (h : ∀ v, v < 2^64 → At F p (be64 v) → Q v (p + 8)) :
    Tot pn e F p readU64 Q :=
  .bind (.readN (Q := fun b q => Q (beNat b) q) (by decide) fun b hb hat => h _ (by have := beNat_lt_pow b; rw [hb] at this; exact this)
    (by rw [be64_beNat hb]; exact hat)) fun _ _ hq => .pure hq

theorem Tot.readU8Vec {Q : Bytes → Nat → Prop} {n : Nat} (h2 : 2^63 ≤ n → pn)
    (h : ∀ b, n = 0 ∨ p + n ≤ F.length → Q b (p + n)) : Tot pn e F p (readU8Vec n) Q :=
  .bind (.alloc (Q := fun _ q => q = p) h2 fun _ => rfl) fun _ q hq => hq ▸ .readExact fun hl => h _ hl

theorem Tot.readUtf8 {Q : Str → Nat → Prop} {n : Nat} (h2 : 2^63 ≤ n → pn)
    (h : ∀ b, n = 0 ∨ p + n ≤ F.length → Q b (p + n)) : Tot pn e F p (readUtf8 n) Q :=
  .bind (.readU8Vec (Q := fun _ q => ∀ b, Q b q) h2 fun _ hl b => h b hl) fun b q hq => by
    split
    · exact .pure (hq _)
    · exact .fail

theorem Tot.readUtf16 {Q : Str → Nat → Prop} {n : Nat} (h2 : 2^63 ≤ n → pn)
    (h : ∀ b, n = 0 ∨ p + n ≤ F.length → Q b (p + n)) : Tot pn e F p (readUtf16 n) Q :=
  .bind (.alloc (Q := fun _ q => q = p) h2 fun _ => rfl) fun _ q hq => hq ▸
    .bind (.readExact (Q := fun _ q => ∀ b, Q b q) fun hl b => h b hl) fun b q hq => by
    split
    · exact .pure (hq _)
    · exact .fail

theorem Tot.dataParse {t n : Nat} (h2 : 2^63 ≤ n → pn) : Tot pn e F p (Data.parse t n) fun _ q => p ≤ q := by
  unfold Data.parse
  split <;> first
    | exact .bind (.readU8Vec (Q := fun _ q => p ≤ q) h2 fun _ _ => by omega) fun _ _ hq => .pure hq
    | exact .bind (.readUtf8 (Q := fun _ q => p ≤ q) h2 fun _ _ => by omega) fun _ _ hq => .pure hq
    | exact .bind (.readUtf16 (Q := fun _ q => p ≤ q) h2 fun _ _ => by omega) fun _ _ hq => .pure hq
    | exact .fail

/-! ### Heads -/

/-- A head is at position `p`. -/
def HeadOf (F : Bytes) (p : Nat) (h : Head) : Prop :=
  At F p (headBytes h.size.ext h.fourcc h.size.len) ∧ h.size.len < (if h.size.ext then 2^64 else 2^32) ∧
  (h.size.ext = false → 8 ≤ h.size.len)

theorem headBytes_length (ext fc n) : (headBytes ext fc n).length = hlen ext := by cases ext <;> rfl
theorem headLen_hlen (s : Size) : s.headLen = hlen s.ext := rfl

theorem HeadOf.headIn {h : Head} (hh : HeadOf F p h) :
    HeadIn F h.size.ext h.fourcc h.size.len (F.drop (p + h.size.headLen)) := by
  refine ⟨hh.2.1, F.take p, ?_⟩
  obtain ⟨A, B, hF, hA⟩ := hh.1.elim
  have h1 : F.take p = A := by rw [hF, List.append_assoc, ← hA, List.take_left]
  have h2 : F.drop (p + h.size.headLen) = B := by
    rw [hF, headLen_hlen, ← headBytes_length, ← hA, ← List.length_append, List.drop_left]
  rw [h1, h2]; exact hF

theorem HeadOf.le {h : Head} (hh : HeadOf F p h) : p + h.size.headLen ≤ F.length := by
  have := hh.1.le
  rw [headBytes_length] at this
  exact this

theorem Tot.parseHead {Q : Head → Nat → Prop} (h : ∀ hd, HeadOf F p hd → Q hd (p + hd.size.headLen)) :
    Tot pn e F p parseHead Q := by
  refine .bind (.readU32 (Q := fun v q => q = p + 4 ∧ v < 2^32 ∧ At F p (be32 v)) fun v h1 h2 => ⟨rfl, h1, h2⟩) ?_
  rintro len _ ⟨rfl, h1, h2⟩
  refine .bind (.readN (Q := fun b q => q = p + 4 + 4 ∧ b.length = 4 ∧ At F (p + 4) b) (by decide) fun v h1 h2 => ⟨rfl, h1, h2⟩) ?_
  rintro b _ ⟨rfl, h3, h4⟩
  rw [← four_bytes h3] at h4
  generalize (⟨b.getD 0 0, b.getD 1 0, b.getD 2 0, b.getD 3 0⟩ : Fourcc) = fc at h4 ⊢
  dsimp only
  have h24 : At F p (be32 len ++ fc.bytes) := At_append.mpr ⟨h2, h4⟩
  refine .ite (fun hl => ?_) fun hl => .ite (fun _ => .fail) fun h8 => .pure ?_
  · subst hl
    refine .bind (.readU64 (Q := fun v q => q = p + 4 + 4 + 8 ∧ v < 2^64 ∧ At F (p + 4 + 4) (be64 v)) fun v h1 h2 => ⟨rfl, h1, h2⟩) ?_
    rintro l _ ⟨rfl, h5, h6⟩
    refine .pure (h ⟨⟨true, l⟩, fc⟩ ⟨At_append.mpr ⟨h24, h6⟩, h5, by simp⟩)
  · exact h ⟨⟨false, len⟩, fc⟩ ⟨h24, h1, fun _ => by show 8 ≤ len; omega⟩

/-- Sizes are at least those of the heads, and less than 2^63. -/
theorem SaneB.size (hs : SaneB e F) {h : Head} (hh : HeadOf F p h) : h.size.headLen ≤ h.size.len ∧ h.size.len < 2^63 := by
  have hi := hh.headIn
  have h8 := hh.2.2
  have hl := hh.2.1
  rw [headLen_hlen]
  cases hx : h.size.ext with
  | true =>
    rw [hx] at hi
    exact hs.sizes _ _ _ hi
  | false =>
    rw [hx] at hl h8
    simp only [Bool.false_eq_true, if_false] at hl
    exact ⟨h8 rfl, by omega⟩

theorem contentLen_sane {s : Size} (h : s.headLen ≤ s.len) : s.contentLen e = .ok (s.len - s.headLen) := by
  unfold Size.contentLen Mp4.subU
  exact if_pos h

theorem Tot.skipContent (hs : SaneB e F) {h : Head} (hh : HeadOf F p h) {q : Nat} :
    Tot pn e F q (skipContent h) fun _ r => q ≤ r := by
  obtain ⟨h1, h2⟩ := hs.size hh
  refine .bind (.E (Q := fun n r => n < 2^63 ∧ q = r) (contentLen_sane h1) ⟨by omega, rfl⟩) ?_
  rintro n _ ⟨hn, rfl⟩
  rw [asI64_small hn]
  exact .seekCur fun r hr _ => by omega

theorem Tot.parseFullHead {Q : UInt8 × Bytes → Nat → Prop}
    (h : ∀ v fl, fl.length = 3 → At F p (v :: fl) → Q (v, fl) (p + 4)) : Tot pn e F p parseFullHead Q := by
  refine .bind (.readU8 (Q := fun v q => q = p + 1 ∧ At F p [v]) fun v h1 => ⟨rfl, h1⟩) ?_
  rintro v _ ⟨rfl, h1⟩
  refine .bind (.readN (Q := fun b q => q = p + 1 + 3 ∧ b.length = 3 ∧ At F (p + 1) b) (by decide) fun v h1 h2 => ⟨rfl, h1, h2⟩) ?_
  rintro b _ ⟨rfl, h2, h3⟩
  exact .pure (h _ _ h2 (show At F p ([v] ++ b) from At_append.mpr ⟨h1, h3⟩))

theorem Tot.fullHeadPos : Tot pn e F p Mp4.parseFullHead fun _ q => q = p + 4 := .parseFullHead fun _ _ _ _ => rfl

theorem Tot.findBounds {h : Head} {Q : AtomBounds → Nat → Prop} (hq : Q ⟨p, h.size⟩ (p + h.size.headLen)) :
    Tot pn e F (p + h.size.headLen) (findBounds h.size) Q := by
  refine .bind (.tell (Q := fun c q => c = p + h.size.headLen ∧ q = p + h.size.headLen) ⟨rfl, rfl⟩) ?_
  rintro _ _ ⟨rfl, rfl⟩
  refine .bind (.subU (Q := fun c q => c = p ∧ q = p + h.size.headLen) (fun _ => ⟨by omega, rfl⟩) (fun _ => by omega)
    fun _ => by omega) ?_
  rintro _ _ ⟨rfl, rfl⟩
  exact .pure hq

theorem Tot.seekToEnd (hm : e.maxPos < 2^63) {b : AtomBounds} {q : Nat} (h1 : b.pos + b.size.len < 2^64) (h2 : q < 2^63)
    (h3 : b.pos + b.size.len < q → e.checked = true → pn) :
    Tot pn e F q (seekToEnd b) fun _ r => r = b.pos + b.size.len := by
  refine .bind (.tell (Q := fun c r => q = c ∧ q = r) ⟨rfl, rfl⟩) ?_
  rintro _ _ ⟨rfl, rfl⟩
  refine .bind (.addU (Q := fun c r => c = b.pos + b.size.len ∧ q = r) h1 ⟨rfl, rfl⟩) ?_
  rintro _ _ ⟨rfl, rfl⟩
  refine .bind (.subU (Q := fun c r => q = r ∧ ((q ≤ b.pos + b.size.len ∧ c = b.pos + b.size.len - q) ∨
    (b.pos + b.size.len < q ∧ c = 2^64 + (b.pos + b.size.len) - q))) (fun h => ⟨rfl, .inl ⟨h, rfl⟩⟩) h3
    fun h _ => ⟨rfl, .inr ⟨h, rfl⟩⟩) ?_
  rintro c _ ⟨rfl, hc⟩
  refine .seekCur fun r hr hrm => ?_
  unfold asI64 at hr
  split at hr <;> omega

/-! ### Loops -/

/-- A container loop makes progress if the children do not move in front of their content. -/
theorem walk_tot {σ} {limit : E Nat} {handle : σ → Head → P σ} {lim : Nat} (hs : SaneB e F) (hl : limit e = .ok lim)
    (hlim : lim < 2^63)
    (hh : ∀ s h p, HeadOf F p h → Tot pn e F (p + h.size.headLen) (handle s h) fun _ q => p + h.size.headLen ≤ q) :
    ∀ f s parsed p, F.length < p + 8 * f → 0 < f → Tot pn e F p (walk limit handle f s parsed) fun _ q => p ≤ q := by
  intro f
  induction f with
  | zero => intro s parsed p _ h; omega
  | succ f ih =>
    intro s parsed p hf _
    rw [walk]
    refine .bind (.E (Q := fun n q => lim = n ∧ p = q) hl ⟨rfl, rfl⟩) ?_
    rintro _ _ ⟨rfl, rfl⟩
    refine .ite (fun hlt => ?_) fun _ => .pure (Nat.le_refl _)
    refine .bind (.parseHead (Q := fun hd q => HeadOf F p hd ∧ q = p + hd.size.headLen) fun hd h => ⟨h, rfl⟩) ?_
    rintro hd _ ⟨hat, rfl⟩
    have hsz := hs.size hat
    have hle := hat.le
    have h8 : 8 ≤ hd.size.headLen := by unfold Size.headLen; split <;> omega
    refine .bind (hh s hd p hat) fun s' q hq => ?_
    refine .bind (.addU (Q := fun n r => q = r) (by omega) rfl) ?_
    rintro n _ rfl
    exact (ih s' n q (by omega) (by omega)).mono fun _ r hr => by omega

theorem loop_tot {σ} {limit : E Nat} {handle : σ → Head → P σ} {lim : Nat} (hs : SaneB e F) (hl : limit e = .ok lim)
    (hlim : lim < 2^63)
    (hh : ∀ s h p, HeadOf F p h → Tot pn e F (p + h.size.headLen) (handle s h) fun _ q => p + h.size.headLen ≤ q)
    (s parsed p) : Tot pn e F p (loop limit handle s parsed) fun _ q => p ≤ q := by
  have := hs.fit.fuel
  refine .bind (.getFuel (Q := fun f q => f = e.fuel ∧ p = q) ⟨rfl, rfl⟩) ?_
  rintro _ _ ⟨rfl, rfl⟩
  exact walk_tot hs hl hlim hh _ _ _ _ (by omega) (by omega)

/-- A container whose content starts `k` bytes after its head. -/
theorem container_tot {σ} {handle : σ → Head → P σ} (hs : SaneB e F) {h : Head} {p0 : Nat} (hat : HeadOf F p0 h)
    (hh : ∀ s h p, HeadOf F p h → Tot pn e F (p + h.size.headLen) (handle s h) fun _ q => p + h.size.headLen ≤ q)
    (s parsed p) : Tot pn e F p (loop h.size.contentLen handle s parsed) fun _ q => p ≤ q := by
  obtain ⟨h1, h2⟩ := hs.size hat
  exact loop_tot hs (contentLen_sane h1) (by omega) hh s parsed p

/-- What a function does with the content of an atom: it ends, after its head. -/
def Ends (pn : Prop) (e : Env) (F : Bytes) {τ} (parse : Size → P τ) (fc : Fourcc) : Prop :=
  ∀ h p, HeadOf F p h → h.fourcc = fc → Tot pn e F (p + h.size.headLen) (parse h.size) fun _ q => p + h.size.headLen ≤ q

theorem Ends.child {σ τ} {fc : Fourcc} {parse : Size → P τ} (he : Ends pn e F parse fc) (g : τ → σ) {h : Head} {p : Nat}
    (hat : HeadOf F p h) (hf : h.fourcc = fc) :
    Tot pn e F (p + h.size.headLen) (do let a ← parse h.size; Pure.pure (g a)) fun _ q => p + h.size.headLen ≤ q :=
  .bind (he h p hat hf) fun _ _ hq => .pure hq

theorem skip_child {σ} (hs : SaneB e F) (s : σ) {h : Head} {p : Nat} (hat : HeadOf F p h) :
    Tot pn e F (p + h.size.headLen) (do Mp4.skipContent h; Pure.pure s) fun _ q => p + h.size.headLen ≤ q :=
  .bind (.skipContent hs hat) fun _ _ hq => .pure hq

theorem one_child {σ τ} {fc : Fourcc} {parse : Size → P τ} (hs : SaneB e F) (he : Ends pn e F parse fc) (g : σ → τ → σ)
    (s : σ) (h : Head) (p : Nat) (hat : HeadOf F p h) :
    Tot pn e F (p + h.size.headLen)
      (if h.fourcc = fc then do let a ← parse h.size; Pure.pure (g s a) else do Mp4.skipContent h; Pure.pure s)
      fun _ q => p + h.size.headLen ≤ q :=
  .ite (fun hf => he.child (g s) hat hf) fun _ => skip_child hs s hat

end

end Mp4
