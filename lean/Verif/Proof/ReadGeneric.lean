import Verif.Spec.Content
import Verif.Proof.Stream
import Verif.Proof.Text
/-
The container loop with a relation between children read so far and local variables, and the
"last one counts" loops.
-/
namespace Mp4
open Spec

theorem walk_rel {κ σ} {box : κ → Box} {handle : σ → Head → P σ} {I : List κ → σ → Prop}
    {e : Env} {F : Bytes} {limit : E Nat} {lim : Nat} (hF : F.length < 2^63) (hlim : limit e = .ok lim) :
    ∀ (ks done : List κ) (fuel parsed p : Nat) (s : σ),
    (∀ k ∈ ks, (box k).Fits) →
    (∀ k ∈ ks, ∀ done q s, I done s → At F q (box k).ser →
      ∃ s', handle s (box k).hd e F (q + (box k).headLen) = .ok (s', q + (box k).ser.length) ∧
        I (done ++ [k]) s') →
    I done s → At F p (serL box ks) → ks.length < fuel → parsed + (serL box ks).length = lim → lim < 2^64 →
    ∃ s', walk limit handle fuel s parsed e F p = .ok (s', p + (serL box ks).length) ∧ I (done ++ ks) s' := by
  intro ks
  induction ks with
  | nil =>
    intro done fuel parsed p s _ _ hI _ hf hp _
    cases fuel with
    | zero => simp at hf
    | succ fuel =>
      refine ⟨s, ?_, by simpa using hI⟩
      rw [walk, P.bind_ok (E.p_ok hlim F p), P.if_apply, if_neg (by simp [serL_nil] at hp; omega)]
      rfl
  | cons k ks ih =>
    intro done fuel parsed p s hfit hh hI hat hf hp hl
    cases fuel with
    | zero => simp at hf
    | succ fuel =>
      rw [serL_cons, List.length_append] at hp
      rw [serL_cons, At_append] at hat
      have hpos := (box k).headLen_pos
      have hsl := (box k).ser_length
      obtain ⟨s1, h1, hI1⟩ := hh k (by simp) done p s hI hat.1
      obtain ⟨s', h2, hI2⟩ := ih (done ++ [k]) fuel (parsed + (box k).ser.length) (p + (box k).ser.length) s1
        (fun k hk => hfit k (by simp [hk])) (fun k hk => hh k (by simp [hk])) hI1 hat.2
        (by simpa using hf) (by omega) hl
      refine ⟨s', ?_, by simpa using hI2⟩
      rw [walk, P.bind_ok (E.p_ok hlim F p), P.if_apply, if_pos (by omega)]
      rw [P.bind_ok (parseHead_box hat.1 (hfit k (by simp)) hF e)]
      rw [P.bind_ok h1]
      have ha : addU parsed (box k).hd.size.len e = .ok (parsed + (box k).ser.length) := by
        have : (box k).hd.size.len = (box k).ser.length := by rw [hsl]; rfl
        rw [this, addU, if_pos (by omega)]
      rw [P.bind_ok (E.p_ok ha F _), h2, serL_cons, List.length_append, Nat.add_assoc]

theorem loop_rel {κ σ} {box : κ → Box} {handle : σ → Head → P σ} (I : List κ → σ → Prop)
    {e : Env} {F : Bytes} {limit : E Nat} {parsed : Nat} {ks : List κ} {p : Nat} {s : σ}
    (hF : Fit e F) (hlim : limit e = .ok (parsed + (serL box ks).length))
    (hfit : ∀ k ∈ ks, (box k).Fits)
    (hh : ∀ k ∈ ks, ∀ done q s, I done s → At F q (box k).ser →
      ∃ s', handle s (box k).hd e F (q + (box k).headLen) = .ok (s', q + (box k).ser.length) ∧
        I (done ++ [k]) s')
    (hI : I [] s) (hat : At F p (serL box ks)) (hp : parsed ≤ p) :
    ∃ s', loop limit handle s parsed e F p = .ok (s', p + (serL box ks).length) ∧ I ks s' := by
  have h1 := hat.le
  have h2 := hF.len
  have h3 := hF.fuel
  have h4 := serL_length_le box ks
  rw [loop, P.bind_ok (show getFuel e F p = .ok (e.fuel, p) from rfl)]
  have := walk_rel (I := I) hF.len hlim ks [] e.fuel parsed p s hfit hh hI hat (by omega) rfl (by omega)
  simpa using this

/-- Optional values related by `V`. -/
def OptRel {γ τ} (V : γ → τ → Prop) : Option γ → Option τ → Prop
  | none, none => True
  | some g, some t => V g t
  | _, _ => False

/-- The handler of a container in which the last atom `fc` counts. -/
def lastHandle {τ} (fc : Fourcc) (parse : Size → P τ) (s : Option τ) (h : Head) : P (Option τ) :=
  if h.fourcc = fc then do let a ← parse h.size; pure (some a)
  else do skipContent h; pure s

/-- The state of the loop after some children. -/
def LastInv {κ β γ τ} (sel : κ → Option β) (R : β → γ → Prop) (V : γ → τ → Prop)
    (done : List κ) (s : Option τ) : Prop :=
  match (done.filterMap sel).getLast? with
  | some b => ∃ t, s = some t ∧ ∀ g, R b g → V g t
  | none => s = none

theorem LastInv.snoc_some {κ β γ τ} {sel : κ → Option β} {R : β → γ → Prop} {V : γ → τ → Prop}
    {done : List κ} {k : κ} {b : β} {t : τ} (hb : sel k = some b) (ht : ∀ g, R b g → V g t) :
    LastInv sel R V (done ++ [k]) (some t) := by
  simp only [LastInv, List.filterMap_append, List.filterMap_cons, hb, List.filterMap_nil,
    List.getLast?_concat]
  exact ⟨t, rfl, ht⟩

theorem LastInv.snoc_none {κ β γ τ} {sel : κ → Option β} {R : β → γ → Prop} {V : γ → τ → Prop}
    {done : List κ} {k : κ} {s : Option τ} (hb : sel k = none) (h : LastInv sel R V done s) :
    LastInv sel R V (done ++ [k]) s := by
  simpa only [LastInv, List.filterMap_append, List.filterMap_cons, hb, List.filterMap_nil,
    List.append_nil] using h

theorem LastInv.optRel {κ β γ τ} {sel : κ → Option β} {R : β → γ → Prop} {V : γ → τ → Prop}
    {ks : List κ} {s : Option τ} {r : Option γ} (h : LastInv sel R V ks s) (hr : LastOf sel R ks r) :
    OptRel V r s := by
  have h2 := hr.2
  unfold LastInv at h
  cases hl : (ks.filterMap sel).getLast? with
  | none => rw [hl] at h h2; subst h h2; trivial
  | some b =>
    rw [hl] at h h2
    obtain ⟨t, rfl, ht⟩ := h
    obtain ⟨g, rfl, hg⟩ := h2
    exact ht g hg

/-- From one value to all values: the parser is deterministic. -/
theorem parse_all {γ τ} {R : γ → Prop} {V : γ → τ → Prop} {o : Out (τ × Nat)} {q : Nat}
    (hex : ∃ g, R g) (h : ∀ g, R g → ∃ t, o = .ok (t, q) ∧ V g t) :
    ∃ t, o = .ok (t, q) ∧ ∀ g, R g → V g t := by
  obtain ⟨g0, hg0⟩ := hex
  obtain ⟨t, ht, -⟩ := h g0 hg0
  refine ⟨t, ht, fun g hg => ?_⟩
  obtain ⟨t', ht', hv⟩ := h g hg
  rw [ht] at ht'
  simp only [Out.ok.injEq, Prod.mk.injEq, and_true] at ht'
  rw [ht']; exact hv

theorem last_loop {κ β γ τ} {box : κ → Box} {sel : κ → Option β} {R : β → γ → Prop} {V : γ → τ → Prop}
    {fc : Fourcc} {parse : Size → P τ} {e : Env} {F : Bytes} {limit : E Nat} {parsed p : Nat}
    {ks : List κ} {r : Option γ}
    (hF : Fit e F) (hlim : limit e = .ok (parsed + (serL box ks).length))
    (hfit : ∀ k ∈ ks, (box k).Fits)
    (hsel : ∀ k ∈ ks, (sel k).isSome = true ↔ (box k).fc = fc)
    (hparse : ∀ k ∈ ks, ∀ b g, sel k = some b → R b g → ∀ q, At F q (box k).ser →
      ∃ t, parse (box k).size e F (q + (box k).headLen) = .ok (t, q + (box k).ser.length) ∧ V g t)
    (hr : LastOf sel R ks r) (hat : At F p (serL box ks)) (hp : parsed ≤ p) :
    ∃ r', loop limit (lastHandle fc parse) none parsed e F p = .ok (r', p + (serL box ks).length) ∧
      OptRel V r r' := by
  obtain ⟨s', h1, h2⟩ := loop_rel (LastInv sel R V) (s := none) (handle := lastHandle fc parse) hF hlim hfit
    (by
      intro k hk done q s hI hat
      unfold lastHandle
      cases hs : sel k with
      | some b =>
        have hfc : (box k).hd.fourcc = fc := (hsel k hk).mp (by simp [hs])
        obtain ⟨t, ht, hv⟩ := parse_all (hr.1 k hk b hs) (fun g hg => hparse k hk b g hs hg q hat)
        refine ⟨some t, ?_, LastInv.snoc_some hs hv⟩
        rw [if_pos hfc]; exact P.bind_ok ht
      | none =>
        have hfc : ¬ (box k).hd.fourcc = fc := fun h => by
          have := (hsel k hk).mpr h; simp [hs] at this
        refine ⟨s, ?_, LastInv.snoc_none hs hI⟩
        rw [if_neg hfc, P.bind_ok (skipContent_box hat hF)]; rfl)
    (by simp [LastInv]) hat hp
  exact ⟨s', h1, h2.optRel hr⟩

end Mp4
