import Verif.Model.Write
/-
Inversion and evaluation lemmas for the stream monad.
-/
namespace Mp4

theorem P.bind_apply {α β} (m : P α) (f : α → P β) (e F p) :
    (m >>= f) e F p = (match m e F p with
      | .ok (a, p') => f a e F p'
      | .err k => .err k
      | .panic => .panic
      | .fuel => .fuel) := rfl

theorem P.pure_apply {α} (a : α) (e F p) : (pure a : P α) e F p = .ok (a, p) := rfl

theorem P.bind_ok {α β} {m : P α} {f : α → P β} {e F p a p'} (h : m e F p = .ok (a, p')) :
    (m >>= f) e F p = f a e F p' := by rw [P.bind_apply, h]

theorem P.bind_inv {α β} {m : P α} {f : α → P β} {e F p x} (h : (m >>= f) e F p = .ok x) :
    ∃ a p', m e F p = .ok (a, p') ∧ f a e F p' = .ok x := by
  rw [P.bind_apply] at h
  split at h
  · rename_i a p' hm; exact ⟨a, p', hm, h⟩
  all_goals simp at h

theorem P.pure_inv {α} {a b : α} {e F p q} (h : (pure a : P α) e F p = .ok (b, q)) : a = b ∧ p = q := by
  simp only [P.pure_apply, Out.ok.injEq, Prod.mk.injEq] at h; exact h

theorem P.fail_inv {α} {k e F p} {x : α × Nat} : ¬ (fail k : P α) e F p = .ok x := by
  simp [fail]

theorem E.p_inv {α} {m : E α} {e F p a q} (h : m.p e F p = .ok (a, q)) : m e = .ok a ∧ p = q := by
  simp only [E.p] at h
  split at h <;> simp at h
  rename_i hm
  exact ⟨by rw [hm, h.1], h.2⟩

theorem E.p_ok {α} {m : E α} {e a} (h : m e = .ok a) (F p) : m.p e F p = .ok (a, p) := by
  simp [E.p, h]

theorem P.if_apply {α} (c : Prop) [Decidable c] (a b : P α) (e F p) :
    (if c then a else b) e F p = if c then a e F p else b e F p := by split <;> rfl

/-- An invariant of the local variables of a container loop. -/
theorem walk_inv {σ} {limit : E Nat} {handle : σ → Head → P σ} (I : σ → Prop) {e F}
    (hh : ∀ s h p s' p', I s → handle s h e F p = .ok (s', p') → I s') :
    ∀ f s parsed p s' p', I s → walk limit handle f s parsed e F p = .ok (s', p') → I s'
  | 0, s, parsed, p, s', p', _, h => by simp [walk, outOfFuel] at h
  | f+1, s, parsed, p, s', p', hs, h => by
    rw [walk] at h
    obtain ⟨lim, q, _, h⟩ := P.bind_inv h
    rw [P.if_apply] at h
    split at h
    · obtain ⟨hd, q1, _, h⟩ := P.bind_inv h
      obtain ⟨s1, q2, h1, h⟩ := P.bind_inv h
      obtain ⟨n, q3, _, h⟩ := P.bind_inv h
      exact walk_inv I hh f s1 n q3 s' p' (hh _ _ _ _ _ hs h1) h
    · obtain ⟨rfl, -⟩ := P.pure_inv h
      exact hs

theorem loop_inv {σ} {limit : E Nat} {handle : σ → Head → P σ} (I : σ → Prop) {e F}
    (hh : ∀ s h p s' p', I s → handle s h e F p = .ok (s', p') → I s')
    {s parsed p s' p'} (hs : I s) (h : loop limit handle s parsed e F p = .ok (s', p')) : I s' := by
  rw [loop] at h
  obtain ⟨f, q, _, h⟩ := P.bind_inv h
  exact walk_inv I hh _ _ _ _ _ _ hs h

end Mp4
