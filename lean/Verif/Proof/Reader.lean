import Verif.Spec.Reader
/-
Reading through an arbitrary reader is simulated by reading from a stream.
-/
namespace Mp4
open Spec (intrCount Enough)

theorem intrCount_succ (c : Sched) (n : Nat) : intrCount c (n + 1) = intrCount c n + (if c n = .intr then 1 else 0) := by
  unfold intrCount
  rw [List.range_succ, List.filter_append, List.length_append]
  congr 1
  simp only [List.filter_cons, List.filter_nil]
  by_cases h : c n = .intr <;> simp [h]

theorem intrCount_mono (c : Sched) {m n : Nat} (h : m ≤ n) : intrCount c m ≤ intrCount c n := by
  induction n with
  | zero => rw [Nat.le_zero.mp h]; exact Nat.le_refl _
  | succ n ih =>
    rw [intrCount_succ]
    rcases Nat.lt_or_ge m (n + 1) with h' | h'
    · have := ih (by omega); omega
    · rw [show m = n + 1 by omega, intrCount_succ]; exact Nat.le_refl _

/-- The calls issued between two states. -/
structure CallsOk (c : Sched) (s s' : RSt) : Prop where
  le : s.tick ≤ s'.tick
  none : s'.hit = false → ∀ k, s.tick ≤ k → k < s'.tick → c k ≠ .err
  some : s'.hit = true → ∃ k, s.tick ≤ k ∧ k < s'.tick ∧ ∀ n, c k ≠ .give n

theorem CallsOk.refl {c s} (hs : s.hit = false) : CallsOk c s s :=
  ⟨Nat.le_refl _, fun _ k h1 h2 => by omega, fun h => by rw [hs] at h; cases h⟩

theorem CallsOk.trans {c a b d} (h1 : CallsOk c a b) (hb : b.hit = false) (h2 : CallsOk c b d) : CallsOk c a d := by
  refine ⟨Nat.le_trans h1.1 h2.1, fun h k ha hd => ?_, fun h => ?_⟩
  · rcases Nat.lt_or_ge k b.tick with h' | h'
    · exact h1.2 hb k ha h'
    · exact h2.2 h k h' hd
  · obtain ⟨k, h3, h4⟩ := h2.some h
    exact ⟨k, Nat.le_trans h1.le h3, h4⟩

theorem CallsOk.after {c a b d} (h2 : CallsOk c b d) (hb : b.hit = false) (h1 : CallsOk c a b) : CallsOk c a d := h1.trans hb h2

theorem CallsOk.step {c a d} (hc : c a.tick ≠ .err) (ht : d.tick = a.tick + 1) (hd : d.hit = false) : CallsOk c a d :=
  ⟨by omega, fun _ k h1 h2 => by rw [show k = a.tick by omega]; exact hc, fun h => by rw [hd] at h; cases h⟩

theorem CallsOk.hit {c a d} (hc : ∀ n, c a.tick ≠ .give n) (ht : d.tick = a.tick + 1) (hh : d.hit = true) : CallsOk c a d :=
  ⟨by omega, fun h => (by rw [hh] at h; cases h), fun _ => ⟨a.tick, Nat.le_refl _, by omega, hc⟩⟩

/-- The outcome of reading from the stream. -/
def Agree {α} (x : Out α × RSt) : Out (α × Nat) → Prop
  | .ok (a, q) => x.1 = .ok a ∧ x.2.pos = q
  | .err k => x.1 = .err k
  | .panic => x.1 = .panic
  | .fuel => x.1 = .fuel

/-- A result that agrees with the outcome on the stream, unless an error is reported (or the iterations do not suffice). -/
def RRes (c : Sched) (e : Env) (F : Bytes) {α} (s : RSt) (x : Out α × RSt) (o : Out (α × Nat)) : Prop :=
  CallsOk c s x.2 ∧
  ((x.2.hit = false ∧ Agree x o) ∨ (x.2.hit = true ∧ x.1 = .err .io) ∨ (x.2.hit = false ∧ x.1 = .fuel ∧ ¬ Enough c e F))

/-- `r` does what `p` does, unless an error is reported (or the iterations do not suffice). -/
structure RSim (c : Sched) (e : Env) (F : Bytes) {α} (r : R α) (p : P α) : Prop where
  run : ∀ s, s.hit = false → RRes c e F s (r c e F s) (p e F s.pos)

namespace RSim

variable {c : Sched} {e : Env} {F : Bytes}

theorem pure {α} (a : α) : RSim c e F (Pure.pure a : R α) (Pure.pure a) :=
  ⟨fun s hs => ⟨CallsOk.refl hs, .inl ⟨hs, rfl, rfl⟩⟩⟩

theorem bind {α β} {r : R α} {p : P α} {g : α → R β} {f : α → P β} (h : RSim c e F r p) (hf : ∀ a, RSim c e F (g a) (f a)) :
    RSim c e F (r >>= g) (p >>= f) := by
  refine ⟨fun s hs => ?_⟩
  obtain ⟨hq, h⟩ := h.run s hs
  show RRes c e F s (R.bind r g c e F s) (P.bind p f e F s.pos)
  unfold R.bind P.bind
  rcases hx : r c e F s with ⟨o, s'⟩
  rw [hx] at hq h
  dsimp only at hq h
  rcases h with ⟨h1, h2⟩ | ⟨h1, h2⟩ | ⟨h1, h2, h3⟩
  · rcases hp : p e F s.pos with ⟨a, q⟩ | k | _ | _
    · rw [hp] at h2
      obtain ⟨h2, h3⟩ := h2
      dsimp only at h2 h3
      subst h2 h3
      obtain ⟨hq', h'⟩ := (hf a).run s' h1
      exact ⟨hq.trans h1 hq', h'⟩
    all_goals
      rw [hp] at h2
      change o = _ at h2
      subst h2
      exact ⟨hq, .inl ⟨h1, rfl⟩⟩
  · subst h2
    exact ⟨hq, .inr (.inl ⟨h1, rfl⟩)⟩
  · subst h2
    exact ⟨hq, .inr (.inr ⟨h1, rfl, h3⟩)⟩

theorem E {α} (m : E α) : RSim c e F m.r m.p := by
  refine ⟨fun s hs => ?_⟩
  refine ⟨CallsOk.refl hs, .inl ⟨hs, ?_⟩⟩
  unfold E.r E.p
  cases m e <;> simp only [Agree, and_self]

theorem fail {α} (k : ErrKind) : RSim c e F (failR k : R α) (Mp4.fail k) := ⟨fun _ hs => ⟨CallsOk.refl hs, .inl ⟨hs, rfl⟩⟩⟩
theorem outOfFuel {α} : RSim c e F (outOfFuelR : R α) Mp4.outOfFuel := ⟨fun _ hs => ⟨CallsOk.refl hs, .inl ⟨hs, rfl⟩⟩⟩
theorem getFuel : RSim c e F getFuelR Mp4.getFuel := ⟨fun _ hs => ⟨CallsOk.refl hs, .inl ⟨hs, rfl, rfl⟩⟩⟩

/-- A request for memory does not change what is read. -/
theorem ask {α} {r : R α} {p : P α} (n : Nat) (h : RSim c e F r p) : RSim c e F (askR n >>= fun _ => r) p := by
  refine ⟨fun s hs => ?_⟩
  obtain ⟨⟨h1, h2, h3⟩, h4⟩ := h.run { s with mem := n :: s.mem } hs
  exact ⟨⟨h1, h2, h3⟩, h4⟩
theorem alloc (n : Nat) : RSim c e F (allocR n) (allocU8 n).p := ask n (E _)

theorem ite {α} {q : Prop} [Decidable q] {r r' : R α} {p p' : P α} (h : RSim c e F r p) (h' : RSim c e F r' p') :
    RSim c e F (if q then r else r') (if q then p else p') := by
  split
  · exact h
  · exact h'

theorem seekIn (f : RSt → Nat) (g : Nat → Nat) (hfg : ∀ s, f s = g s.pos) :
    RSim c e F (fun c e F s => seekInR (f s) c e F s) (fun _ _ q => .ok (g q, g q)) := by
  refine ⟨fun s hs => ?_⟩
  show RRes c e F s (seekInR (f s) c e F s) _
  unfold seekInR
  split
  · exact ⟨CallsOk.step (by rename_i h; rw [h]; intro h; cases h) rfl hs, .inl ⟨hs, by rw [hfg]; exact ⟨rfl, rfl⟩⟩⟩
  · exact ⟨CallsOk.hit (by simp_all) rfl rfl, .inr (.inl ⟨rfl, rfl⟩)⟩

theorem tell : RSim c e F tellR tellP := seekIn (fun s => s.pos) (fun q => q) fun _ => rfl
theorem seekEnd : RSim c e F seekEndR Mp4.seekEnd := by
  refine ⟨fun s hs => ?_⟩
  exact (seekIn (c := c) (e := e) (F := F) (fun _ => F.length) (fun _ => F.length) fun _ => rfl).run s hs

theorem seek (f : Nat → Int) :
    RSim c e F (fun c e F s => (do let _ ← seekR (f s.pos); Pure.pure () : R Unit) c e F s)
      (fun e _ q => if 0 ≤ f q ∧ f q ≤ e.maxPos then .ok ((), (f q).toNat) else .err .io) := by
  refine ⟨fun s hs => ?_⟩
  show RRes c e F s (R.bind (seekR (f s.pos)) (fun _ => Pure.pure ()) c e F s) _
  unfold R.bind seekR
  rcases hc : c s.tick with n | _ | _ <;> dsimp only
  · by_cases h : 0 ≤ f s.pos ∧ f s.pos ≤ e.maxPos
    · rw [if_pos h, if_pos h]
      exact ⟨CallsOk.step (by rw [hc]; intro h; cases h) rfl hs, .inl ⟨hs, rfl, rfl⟩⟩
    · rw [if_neg h, if_neg h]
      exact ⟨CallsOk.step (by rw [hc]; intro h; cases h) rfl hs, .inl ⟨hs, rfl⟩⟩
  · exact ⟨CallsOk.hit (by simp_all) rfl rfl, .inr (.inl ⟨rfl, rfl⟩)⟩
  · exact ⟨CallsOk.hit (by simp_all) rfl rfl, .inr (.inl ⟨rfl, rfl⟩)⟩

theorem seekCur (n : Int) : RSim c e F (seekCurR n) (Mp4.seekCur n) := seek fun q => q + n
theorem seekStart (n : Nat) : RSim c e F (seekStartR n) (Mp4.seekStart n) := by
  have h := seek (c := c) (e := e) (F := F) fun _ => (n : Int)
  have : (fun (e : Env) (_ : Bytes) (_ : Nat) => if 0 ≤ (n : Int) ∧ (n : Int) ≤ e.maxPos then Out.ok ((), (n : Int).toNat) else .err .io) = Mp4.seekStart n := by
    funext e _ _
    unfold Mp4.seekStart
    by_cases h : n ≤ e.maxPos
    · rw [if_pos h, if_pos (by omega)]; rfl
    · rw [if_neg h, if_neg (by omega)]
  rw [this] at h
  exact h

end RSim

/-! ### `read_exact` and `read_to_end` -/

theorem take_step (l : Bytes) {m n : Nat} (h : m ≤ n) :
    l.take m ++ (l.drop (l.take m).length).take (n - (l.take m).length) = l.take n := by
  rw [List.length_take]
  rcases Nat.le_total m l.length with h' | h'
  · rw [Nat.min_eq_left h', ← List.take_add, Nat.add_sub_cancel' h]
  · rw [Nat.min_eq_right h', List.drop_length, List.take_nil, List.append_nil, List.take_of_length_le h',
      List.take_of_length_le (by omega)]

theorem readExactLoop_spec (c : Sched) (e : Env) (F : Bytes) (f : Nat) : ∀ (n : Nat) (acc : Bytes) (s : RSt), s.hit = false →
    CallsOk c s (readExactLoop f n acc c e F s).2 ∧
    (((readExactLoop f n acc c e F s).2.hit = false ∧ (n = 0 ∨ s.pos + n ≤ F.length) ∧
        (readExactLoop f n acc c e F s).1 = .ok (acc ++ (F.drop s.pos).take n) ∧ (readExactLoop f n acc c e F s).2.pos = s.pos + n) ∨
     ((readExactLoop f n acc c e F s).2.hit = false ∧ ¬ (n = 0 ∨ s.pos + n ≤ F.length) ∧ (readExactLoop f n acc c e F s).1 = .err .io) ∨
     ((readExactLoop f n acc c e F s).2.hit = true ∧ (readExactLoop f n acc c e F s).1 = .err .io) ∨
     ((readExactLoop f n acc c e F s).2.hit = false ∧ (readExactLoop f n acc c e F s).1 = .fuel ∧
        ∀ B, (∀ n, intrCount c n ≤ B) → f ≤ F.length - s.pos + (B - intrCount c s.tick))) := by
  induction f with
  | zero =>
    intro n acc s hs
    exact ⟨CallsOk.refl hs, .inr (.inr (.inr ⟨hs, rfl, fun _ _ => Nat.zero_le _⟩))⟩
  | succ f ih =>
    intro n acc s hs
    unfold readExactLoop
    by_cases hn : n = 0
    · subst hn
      rw [if_pos rfl]
      exact ⟨CallsOk.refl hs, .inl ⟨hs, .inl rfl, by simp, rfl⟩⟩
    rw [if_neg hn]
    rcases hc : c s.tick with k | _ | _ <;> dsimp only
    · have hq : ∀ s' : RSt, s'.tick = s.tick + 1 → s'.hit = false → CallsOk c s s' := fun s' => CallsOk.step (by rw [hc]; intro h; cases h)
      have hl : ((F.drop s.pos).take (min (k + 1) n)).length = min (min (k + 1) n) (F.length - s.pos) := by
        rw [List.length_take, List.length_drop]
      split
      · rename_i hb
        have : ((F.drop s.pos).take (min (k + 1) n)).length = 0 := by rw [List.isEmpty_iff.mp hb]; rfl
        exact ⟨hq _ rfl hs, .inr (.inl ⟨hs, by omega, rfl⟩)⟩
      · rename_i hb
        have hb' : ((F.drop s.pos).take (min (k + 1) n)).length ≠ 0 := fun h => hb (List.isEmpty_iff.mpr (List.length_eq_zero_iff.mp h))
        have hd := take_step (F.drop s.pos) (m := min (k + 1) n) (n := n) (by omega)
        rw [List.drop_drop] at hd
        generalize hbb : (F.drop s.pos).take (min (k + 1) n) = b at *
        obtain ⟨h1, h2⟩ := ih (n - b.length) (acc ++ b) { s with pos := s.pos + b.length, tick := s.tick + 1 } hs
        refine ⟨h1.after hs (hq _ rfl hs), ?_⟩
        rcases h2 with ⟨h2, h3, h4, h5⟩ | ⟨h2, h3, h4⟩ | h2 | ⟨h2, h3, h4⟩
        · dsimp only at h3 h4 h5
          refine .inl ⟨h2, .inr (by omega), ?_, by rw [h5]; omega⟩
          rw [h4, List.append_assoc, hd]
        · dsimp only at h3
          exact .inr (.inl ⟨h2, by omega, h4⟩)
        · exact .inr (.inr (.inl h2))
        · refine .inr (.inr (.inr ⟨h2, h3, fun B hB => ?_⟩))
          have h5 := h4 B hB
          dsimp only at h5
          have := intrCount_mono c (Nat.le_succ s.tick)
          have := hB (s.tick + 1)
          rw [Nat.succ_eq_add_one] at *
          omega
    · have hq : ∀ s' : RSt, s'.tick = s.tick + 1 → s'.hit = false → CallsOk c s s' := fun s' => CallsOk.step (by rw [hc]; intro h; cases h)
      obtain ⟨h1, h2⟩ := ih n acc { s with tick := s.tick + 1 } hs
      refine ⟨h1.after hs (hq _ rfl hs), ?_⟩
      rcases h2 with h2 | h2 | h2 | ⟨h2, h3, h4⟩
      · exact .inl h2
      · exact .inr (.inl h2)
      · exact .inr (.inr (.inl h2))
      · refine .inr (.inr (.inr ⟨h2, h3, fun B hB => ?_⟩))
        have h5 := h4 B hB
        dsimp only at h5
        have h6 := intrCount_succ c s.tick
        rw [if_pos hc] at h6
        have := hB (s.tick + 1)
        omega
    · exact ⟨CallsOk.hit (by simp_all) rfl rfl, .inr (.inr (.inl ⟨rfl, rfl⟩))⟩

theorem RSim.readExact {c e F} (n : Nat) : RSim c e F (readExactR n) (Mp4.readExact n) := by
  refine ⟨fun s hs => ?_⟩
  unfold readExactR Mp4.readExact
  obtain ⟨h1, h2⟩ := readExactLoop_spec c e F e.fuel n [] s hs
  refine ⟨h1, ?_⟩
  rcases h2 with ⟨h2, h3, h4, h5⟩ | ⟨h2, h3, h4⟩ | h2 | ⟨h2, h3, h4⟩
  · rw [if_pos h3]; exact .inl ⟨h2, h4, h5⟩
  · rw [if_neg h3]; exact .inl ⟨h2, h4⟩
  · exact .inr (.inl h2)
  · refine .inr (.inr ⟨h2, h3, fun ⟨B, hB, hf⟩ => ?_⟩)
    have := h4 B hB
    omega

theorem readToEndLoop_spec (c : Sched) (e : Env) (F : Bytes) (f : Nat) : ∀ (acc : Bytes) (s : RSt), s.hit = false →
    CallsOk c s (readToEndLoop f acc c e F s).2 ∧
    (((readToEndLoop f acc c e F s).2.hit = false ∧
        (readToEndLoop f acc c e F s).1 = .ok (acc ++ F.drop s.pos) ∧ (readToEndLoop f acc c e F s).2.pos = max s.pos F.length) ∨
     ((readToEndLoop f acc c e F s).2.hit = true ∧ (readToEndLoop f acc c e F s).1 = .err .io) ∨
     ((readToEndLoop f acc c e F s).2.hit = false ∧ (readToEndLoop f acc c e F s).1 = .fuel ∧
        ∀ B, (∀ n, intrCount c n ≤ B) → f ≤ F.length - s.pos + (B - intrCount c s.tick))) := by
  induction f with
  | zero =>
    intro acc s hs
    exact ⟨CallsOk.refl hs, .inr (.inr ⟨hs, rfl, fun _ _ => Nat.zero_le _⟩)⟩
  | succ f ih =>
    intro acc s hs
    unfold readToEndLoop
    rcases hc : c s.tick with k | _ | _ <;> dsimp only
    · have hq : ∀ s' : RSt, s'.tick = s.tick + 1 → s'.hit = false → CallsOk c s s' := fun s' => CallsOk.step (by rw [hc]; intro h; cases h)
      have hl : ((F.drop s.pos).take (k + 1)).length = min (k + 1) (F.length - s.pos) := by
        rw [List.length_take, List.length_drop]
      split
      · rename_i hb
        have h0 : ((F.drop s.pos).take (k + 1)).length = 0 := by rw [List.isEmpty_iff.mp hb]; rfl
        refine ⟨hq _ rfl hs, .inl ⟨hs, ?_, ?_⟩⟩
        · rw [List.drop_of_length_le (by omega), List.append_nil]
        · show s.pos + _ = _
          omega
      · rename_i hb
        have hb' : ((F.drop s.pos).take (k + 1)).length ≠ 0 := fun h => hb (List.isEmpty_iff.mpr (List.length_eq_zero_iff.mp h))
        have hd : (F.drop s.pos).take (k + 1) ++ F.drop (s.pos + ((F.drop s.pos).take (k + 1)).length) = F.drop s.pos := by
          rw [← List.drop_drop, List.length_take]
          rcases Nat.le_total (k + 1) (F.drop s.pos).length with h | h
          · rw [Nat.min_eq_left h, List.take_append_drop]
          · rw [Nat.min_eq_right h, List.take_of_length_le h, List.drop_length, List.append_nil]
        generalize hbb : (F.drop s.pos).take (k + 1) = b at *
        obtain ⟨h1, h2⟩ := ih (acc ++ b) { s with pos := s.pos + b.length, tick := s.tick + 1 } hs
        refine ⟨h1.after hs (hq _ rfl hs), ?_⟩
        rcases h2 with ⟨h2, h4, h5⟩ | h2 | ⟨h2, h3, h4⟩
        · dsimp only at h4 h5
          refine .inl ⟨h2, ?_, by rw [h5]; omega⟩
          rw [h4, List.append_assoc, hd]
        · exact .inr (.inl h2)
        · refine .inr (.inr ⟨h2, h3, fun B hB => ?_⟩)
          have h5 := h4 B hB
          dsimp only at h5
          have := intrCount_mono c (Nat.le_succ s.tick)
          have := hB (s.tick + 1)
          rw [Nat.succ_eq_add_one] at *
          omega
    · have hq : ∀ s' : RSt, s'.tick = s.tick + 1 → s'.hit = false → CallsOk c s s' := fun s' => CallsOk.step (by rw [hc]; intro h; cases h)
      obtain ⟨h1, h2⟩ := ih acc { s with tick := s.tick + 1 } hs
      refine ⟨h1.after hs (hq _ rfl hs), ?_⟩
      rcases h2 with h2 | h2 | ⟨h2, h3, h4⟩
      · exact .inl h2
      · exact .inr (.inl h2)
      · refine .inr (.inr ⟨h2, h3, fun B hB => ?_⟩)
        have h5 := h4 B hB
        dsimp only at h5
        have h6 := intrCount_succ c s.tick
        rw [if_pos hc] at h6
        have := hB (s.tick + 1)
        omega
    · exact ⟨CallsOk.hit (by simp_all) rfl rfl, .inr (.inl ⟨rfl, rfl⟩)⟩

theorem RSim.readToEnd {c e F} : RSim c e F readToEndR Mp4.readToEnd := by
  refine ⟨fun s hs => ?_⟩
  unfold readToEndR Mp4.readToEnd
  obtain ⟨h1, h2⟩ := readToEndLoop_spec c e F e.fuel [] s hs
  refine ⟨h1, ?_⟩
  rcases h2 with ⟨h2, h4, h5⟩ | h2 | ⟨h2, h3, h4⟩
  · exact .inl ⟨h2, h4, h5⟩
  · exact .inr (.inl h2)
  · refine .inr (.inr ⟨h2, h3, fun ⟨B, hB, hf⟩ => ?_⟩)
    have := h4 B hB
    omega


/-! ### All functions -/

theorem RSim.bind2 {c e F} {α β γ} {r : R (α × β)} {p : P (α × β)} {g : α × β → R γ} {f : α × β → P γ} (h : RSim c e F r p)
    (hf : ∀ a b, RSim c e F (g (a, b)) (f (a, b))) : RSim c e F (r >>= g) (p >>= f) := RSim.bind h fun ⟨a, b⟩ => hf a b

/-- One step of the simulation. -/
macro "rsim" "[" ts:term,* "]" : tactic =>
  `(tactic| repeat' (first
    | with_reducible exact RSim.pure _
    | with_reducible exact RSim.fail _
    | with_reducible exact RSim.E _
    | with_reducible exact RSim.alloc _
    | with_reducible exact RSim.outOfFuel
    | with_reducible exact RSim.getFuel
    | with_reducible exact RSim.tell
    | with_reducible exact RSim.seekEnd
    | with_reducible exact RSim.seekCur _
    | with_reducible exact RSim.seekStart _
    | with_reducible exact RSim.readExact _
    | with_reducible exact RSim.readToEnd
    $[| with_reducible exact $ts]*
    | with_reducible apply RSim.ite
    | with_reducible apply RSim.bind2
    | with_reducible apply RSim.bind
    | intro _
    | dsimp only))

section
variable {c : Sched} {e : Env} {F : Bytes}

theorem RSim.readU8 : RSim c e F readU8R Mp4.readU8 := by unfold readU8R Mp4.readU8; rsim []
theorem RSim.readU16 : RSim c e F readU16R Mp4.readU16 := by unfold readU16R Mp4.readU16; rsim []
theorem RSim.readU32 : RSim c e F readU32R Mp4.readU32 := by unfold readU32R Mp4.readU32; rsim []
theorem RSim.readU64 : RSim c e F readU64R Mp4.readU64 := by unfold readU64R Mp4.readU64; rsim []
theorem RSim.readU8Vec (n : Nat) : RSim c e F (readU8VecR n) (Mp4.readU8Vec n) := by unfold readU8VecR Mp4.readU8Vec; rsim []
theorem RSim.readUtf8 (n : Nat) : RSim c e F (readUtf8R n) (Mp4.readUtf8 n) := by
  unfold readUtf8R Mp4.readUtf8
  refine RSim.bind (RSim.readU8Vec _) fun b => ?_
  cases utf8Dec b <;> rsim []
theorem RSim.readUtf16 (n : Nat) : RSim c e F (readUtf16R n) (Mp4.readUtf16 n) := by
  unfold readUtf16R Mp4.readUtf16
  refine RSim.bind (RSim.alloc _) fun _ => RSim.bind (RSim.readExact _) fun b => ?_
  cases utf16Dec (units16 b) <;> rsim []
theorem RSim.remainingStreamLen : RSim c e F remainingStreamLenR Mp4.remainingStreamLen := by
  unfold remainingStreamLenR Mp4.remainingStreamLen; rsim []
theorem RSim.dataParse (t n : Nat) : RSim c e F (Data.parseR t n) (Data.parse t n) := by
  by_cases h0 : t = 0
  · subst h0; exact RSim.bind (RSim.readU8Vec n) fun _ => RSim.pure _
  by_cases h1 : t = 1
  · subst h1; exact RSim.bind (RSim.readUtf8 n) fun _ => RSim.pure _
  by_cases h2 : t = 2
  · subst h2; exact RSim.bind (RSim.readUtf16 n) fun _ => RSim.pure _
  by_cases h13 : t = 13
  · subst h13; exact RSim.bind (RSim.readU8Vec n) fun _ => RSim.pure _
  by_cases h14 : t = 14
  · subst h14; exact RSim.bind (RSim.readU8Vec n) fun _ => RSim.pure _
  by_cases h21 : t = 21
  · subst h21; exact RSim.bind (RSim.readU8Vec n) fun _ => RSim.pure _
  by_cases h27 : t = 27
  · subst h27; exact RSim.bind (RSim.readU8Vec n) fun _ => RSim.pure _
  have e1 : Data.parseR t n = failR (.unknownDataType t) := by
    unfold Data.parseR; split <;> first | contradiction | rfl
  have e2 : Data.parse t n = Mp4.fail (.unknownDataType t) := by
    unfold Data.parse; split <;> first | contradiction | rfl
  rw [e1, e2]
  exact RSim.fail _
theorem RSim.parseHead : RSim c e F parseHeadR Mp4.parseHead := by
  unfold parseHeadR Mp4.parseHead; rsim [RSim.readU32, RSim.readU64]
theorem RSim.parseFullHead : RSim c e F parseFullHeadR Mp4.parseFullHead := by
  unfold parseFullHeadR Mp4.parseFullHead; rsim [RSim.readU8]
theorem RSim.findBounds (n : Size) : RSim c e F (findBoundsR n) (Mp4.findBounds n) := by
  unfold findBoundsR Mp4.findBounds; rsim []
theorem RSim.seekToEnd (b : AtomBounds) : RSim c e F (seekToEndR b) (Mp4.seekToEnd b) := by
  unfold seekToEndR Mp4.seekToEnd; rsim []
theorem RSim.skipContent (b : Head) : RSim c e F (skipContentR b) (Mp4.skipContent b) := by
  unfold skipContentR Mp4.skipContent; rsim []
theorem RSim.walk {σ : Type} {l : Mp4.E Nat} {g : σ → Head → R σ} {f : σ → Head → P σ} (h : ∀ s x, RSim c e F (g s x) (f s x)) (n : Nat) :
    ∀ s q, RSim c e F (walkR l g n s q) (Mp4.walk l f n s q) := by
  induction n with
  | zero => intro s q; exact RSim.outOfFuel
  | succ n ih => intro s q; unfold walkR Mp4.walk; rsim [RSim.parseHead, h _ _, ih _ _]
theorem RSim.loop {σ : Type} {l : Mp4.E Nat} {g : σ → Head → R σ} {f : σ → Head → P σ} (h : ∀ s x, RSim c e F (g s x) (f s x)) (s : σ) (q : Nat) :
    RSim c e F (loopR l g s q) (Mp4.loop l f s q) := by
  unfold loopR Mp4.loop; rsim [RSim.walk h _ _ _]
/-- As `rsim`, with loops. -/
macro "rsimLoop" "[" ts:term,* "]" : tactic =>
  `(tactic| repeat' (first
    | with_reducible exact RSim.pure _
    | with_reducible exact RSim.fail _
    | with_reducible exact RSim.E _
    | with_reducible exact RSim.alloc _
    | with_reducible exact RSim.outOfFuel
    | with_reducible exact RSim.getFuel
    | with_reducible exact RSim.tell
    | with_reducible exact RSim.seekEnd
    | with_reducible exact RSim.seekCur _
    | with_reducible exact RSim.seekStart _
    | with_reducible exact RSim.readExact _
    | with_reducible exact RSim.readToEnd
    $[| with_reducible exact $ts]*
    | with_reducible apply RSim.ite
    | with_reducible apply RSim.loop
    | with_reducible apply RSim.bind2
    | with_reducible apply RSim.bind
    | intro _
    | dsimp only))

theorem RSim.parseFtyp : RSim c e F parseFtypR Mp4.parseFtyp := by
  unfold parseFtypR Mp4.parseFtyp; rsim [RSim.parseHead, RSim.readUtf8 _]
theorem RSim.parseMvhd (n : Size) : RSim c e F (parseMvhdR n) (Mp4.parseMvhd n) := by
  unfold parseMvhdR Mp4.parseMvhd
  rsim [RSim.findBounds _, RSim.parseFullHead, RSim.readU32, RSim.readU64, RSim.seekToEnd _]
theorem RSim.descHeadLoop (k : Nat) : ∀ a b, RSim c e F (descHeadLoopR k a b) (Mp4.descHeadLoop k a b) := by
  induction k with
  | zero => intro a b; exact RSim.pure _
  | succ k ih => intro a b; unfold descHeadLoopR Mp4.descHeadLoop; rsim [RSim.readU8, ih _ _]
theorem RSim.parseDescHead : RSim c e F parseDescHeadR Mp4.parseDescHead := by
  unfold parseDescHeadR Mp4.parseDescHead; rsim [RSim.readU8, RSim.descHeadLoop _ _ _]
theorem RSim.parseDsDesc (i : Mp4a) (n : Nat) : RSim c e F (parseDsDescR i n) (Mp4.parseDsDesc i n) := by
  unfold parseDsDescR Mp4.parseDsDesc; rsim [RSim.readU16]
theorem RSim.descWalk {w : UInt8} {g : Mp4a → Nat → R Mp4a} {f : Mp4a → Nat → P Mp4a} {l : Nat} (h : ∀ i n, RSim c e F (g i n) (f i n)) (n : Nat) :
    ∀ i q, RSim c e F (descWalkR w g l n i q) (Mp4.descWalk w f l n i q) := by
  induction n with
  | zero => intro s q; exact RSim.outOfFuel
  | succ n ih =>
    intro s q; unfold descWalkR Mp4.descWalk
    apply RSim.ite
    · refine RSim.bind RSim.parseDescHead ?_
      rintro ⟨t, a, b⟩
      rsim [h _ _, ih _ _]
    · exact RSim.pure _
theorem RSim.parseDcDesc (i : Mp4a) (n : Nat) : RSim c e F (parseDcDescR i n) (Mp4.parseDcDesc i n) := by
  unfold parseDcDescR Mp4.parseDcDesc
  exact RSim.bind (RSim.seekCur _) fun _ => RSim.bind RSim.readU32 fun _ => RSim.bind RSim.readU32 fun _ =>
    RSim.bind RSim.getFuel fun _ => RSim.descWalk RSim.parseDsDesc _ _ _
theorem RSim.parseEsDesc (i : Mp4a) (n : Nat) : RSim c e F (parseEsDescR i n) (Mp4.parseEsDesc i n) := by
  unfold parseEsDescR Mp4.parseEsDesc
  exact RSim.bind (RSim.seekCur _) fun _ => RSim.bind RSim.getFuel fun _ => RSim.descWalk RSim.parseDcDesc _ _ _
theorem RSim.parseEsds (i : Mp4a) (n : Size) : RSim c e F (parseEsdsR i n) (Mp4.parseEsds i n) := by
  unfold parseEsdsR Mp4.parseEsds
  refine RSim.bind RSim.parseFullHead ?_
  rintro ⟨v, _⟩
  refine RSim.ite (RSim.fail _) (RSim.bind RSim.parseDescHead ?_)
  rintro ⟨t, a, b⟩
  exact RSim.ite (RSim.fail _) (RSim.bind (RSim.E _) fun _ => RSim.bind (RSim.E _) fun _ => RSim.bind (RSim.E _) fun _ =>
    RSim.parseEsDesc _ _)
theorem RSim.parseMp4a (n : Size) : RSim c e F (parseMp4aR n) (Mp4.parseMp4a n) := by
  unfold parseMp4aR Mp4.parseMp4a; rsim [RSim.findBounds _, RSim.parseHead, RSim.parseEsds _ _, RSim.seekToEnd _]
theorem RSim.parseStsd (n : Size) : RSim c e F (parseStsdR n) (Mp4.parseStsd n) := by
  unfold parseStsdR Mp4.parseStsd
  rsimLoop [RSim.parseFullHead, RSim.parseMp4a _, RSim.skipContent _]
theorem RSim.parseStbl (n : Size) : RSim c e F (parseStblR n) (Mp4.parseStbl n) := by
  unfold parseStblR Mp4.parseStbl
  apply RSim.loop; rsim [RSim.parseStsd _, RSim.skipContent _]
theorem RSim.parseMinf (n : Size) : RSim c e F (parseMinfR n) (Mp4.parseMinf n) := by
  unfold parseMinfR Mp4.parseMinf
  apply RSim.loop; rsim [RSim.parseStbl _, RSim.skipContent _]
theorem RSim.parseMdia (n : Size) : RSim c e F (parseMdiaR n) (Mp4.parseMdia n) := by
  unfold parseMdiaR Mp4.parseMdia
  apply RSim.loop; rsim [RSim.parseMinf _, RSim.skipContent _]
theorem RSim.parseTrak (n : Size) : RSim c e F (parseTrakR n) (Mp4.parseTrak n) := by
  unfold parseTrakR Mp4.parseTrak
  apply RSim.loop; rsim [RSim.parseMdia _, RSim.skipContent _]
theorem RSim.itemHandle (s : ItemSt) (h : Head) : RSim c e F (itemHandleR s h) (Mp4.itemHandle s h) := by
  unfold itemHandleR Mp4.itemHandle
  rsim [RSim.parseFullHead, RSim.dataParse _ _, RSim.readUtf8 _, RSim.skipContent _]
theorem RSim.parseItem (fc : Fourcc) (n : Nat) : RSim c e F (parseItemR fc n) (Mp4.parseItem fc n) := by
  unfold parseItemR Mp4.parseItem
  rsim [RSim.loop RSim.itemHandle _ _]
theorem RSim.parseIlst (n : Size) : RSim c e F (parseIlstR n) (Mp4.parseIlst n) := by
  unfold parseIlstR Mp4.parseIlst
  apply RSim.loop; rsim [RSim.parseItem _ _, RSim.skipContent _]
theorem RSim.parseMeta (n : Size) : RSim c e F (parseMetaR n) (Mp4.parseMeta n) := by
  unfold parseMetaR Mp4.parseMeta
  rsimLoop [RSim.parseFullHead, RSim.parseIlst _, RSim.skipContent _]
theorem RSim.parseUdta (n : Size) : RSim c e F (parseUdtaR n) (Mp4.parseUdta n) := by
  unfold parseUdtaR Mp4.parseUdta
  apply RSim.loop; rsim [RSim.parseMeta _, RSim.skipContent _]
theorem RSim.moovHandle (s : Moov) (h : Head) : RSim c e F (moovHandleR s h) (Mp4.moovHandle s h) := by
  unfold moovHandleR Mp4.moovHandle
  rsim [RSim.parseMvhd _, RSim.parseTrak _, RSim.parseUdta _, RSim.skipContent _]
theorem RSim.parseMoov (n : Size) : RSim c e F (parseMoovR n) (Mp4.parseMoov n) := RSim.loop RSim.moovHandle _ _
theorem RSim.topWalk (l n : Nat) : ∀ q, RSim c e F (topWalkR l n q) (Mp4.topWalk l n q) := by
  induction n with
  | zero => intro q; exact RSim.outOfFuel
  | succ n ih =>
    intro q; unfold topWalkR Mp4.topWalk
    rsim [RSim.parseHead, RSim.parseMoov _, RSim.skipContent _, ih _]
theorem RSim.readTag : RSim c e F readTagR readTagP := by
  unfold readTagR readTagP
  rsim [RSim.parseFtyp, RSim.remainingStreamLen, RSim.topWalk _ _ _]

theorem RSim.findLeaf (n : Size) : RSim c e F (findLeafR n) (Mp4.findLeaf n) := by
  unfold findLeafR Mp4.findLeaf; rsim [RSim.findBounds _, RSim.seekToEnd _]
theorem RSim.findStbl (n : Size) : RSim c e F (findStblR n) (Mp4.findStbl n) := by
  unfold findStblR Mp4.findStbl
  rsimLoop [RSim.findBounds _, RSim.findLeaf _, RSim.skipContent _]
theorem RSim.findMinf (n : Size) : RSim c e F (findMinfR n) (Mp4.findMinf n) := by
  unfold findMinfR Mp4.findMinf
  rsimLoop [RSim.findBounds _, RSim.findStbl _, RSim.skipContent _]
theorem RSim.findMdia (n : Size) : RSim c e F (findMdiaR n) (Mp4.findMdia n) := by
  unfold findMdiaR Mp4.findMdia
  rsimLoop [RSim.findBounds _, RSim.findMinf _, RSim.skipContent _]
theorem RSim.findTrak (n : Size) : RSim c e F (findTrakR n) (Mp4.findTrak n) := by
  unfold findTrakR Mp4.findTrak
  rsimLoop [RSim.findBounds _, RSim.findMdia _, RSim.skipContent _]
theorem RSim.findMeta (n : Size) : RSim c e F (findMetaR n) (Mp4.findMeta n) := by
  unfold findMetaR Mp4.findMeta
  rsimLoop [RSim.findBounds _, RSim.parseFullHead, RSim.findLeaf _, RSim.skipContent _]
theorem RSim.findUdta (n : Size) : RSim c e F (findUdtaR n) (Mp4.findUdta n) := by
  unfold findUdtaR Mp4.findUdta
  rsimLoop [RSim.findBounds _, RSim.findMeta _, RSim.skipContent _]
theorem RSim.findMoov (n : Size) : RSim c e F (findMoovR n) (Mp4.findMoov n) := by
  unfold findMoovR Mp4.findMoov
  rsimLoop [RSim.findBounds _, RSim.findTrak _, RSim.findUdta _, RSim.skipContent _]
theorem RSim.findTop : RSim c e F findTopR Mp4.findTop := by
  unfold findTopR Mp4.findTop
  refine RSim.bind RSim.parseFtyp fun _ => RSim.bind RSim.remainingStreamLen fun _ => RSim.bind (RSim.loop (by
    intro s h; rsim [RSim.findMoov _, RSim.findLeaf _, RSim.skipContent _]) _ _) fun s => ?_
  rcases s with ⟨_ | m, _ | b⟩ <;> rsim []
theorem RSim.readTable (w n : Nat) : RSim c e F (readTableR w n) (Mp4.readTable w n) := by
  induction n with
  | zero => exact RSim.pure _
  | succ n ih => unfold readTableR Mp4.readTable; rsim [ih]
theorem RSim.parseTable (w : Nat) (n : Size) : RSim c e F (parseTableR w n) (Mp4.parseTable w n) := by
  unfold parseTableR Mp4.parseTable
  refine RSim.bind2 RSim.parseFullHead fun _ _ => RSim.ite (RSim.bind RSim.readU32 fun _ => RSim.bind (RSim.E _) fun _ =>
    RSim.ite (RSim.fail _) (RSim.bind RSim.tell fun _ => RSim.ask _ (RSim.bind (RSim.readTable _ _) fun _ => RSim.pure _))) (RSim.fail _)
theorem RSim.preparePhase (atoms : List AtomData) : RSim c e F (preparePhaseR atoms) (Mp4.preparePhase atoms) := by
  unfold preparePhaseR Mp4.preparePhase
  rsim [RSim.findTop]

end

end Mp4
