import Verif.Model.Short
import Verif.Spec.Short
import Verif.Proof.BufFault
import Verif.Proof.AnyBuf
/-
Short and interrupted writes: a save that meets them is one of Model/BufFault.lean, whose calls are those of `write_all`.
-/
namespace Mp4
open Spec

/-- What the loop around `write` has done: it wrote `a`, in parts `l`. -/
structure Put (ws : Sched) (f : Nat) (b : Bytes) (s : FSt) (o : Out Unit) (rest : Bytes) (s' : FSt) (a : Bytes) (l : List Op) : Prop where
  data : b = a ++ rest
  file : s'.file = (s.toWSt.sysWrite a).file
  cur : s'.cur = s.cur + a.length
  buf : s'.buf = s.buf
  trace : s'.trace = s.trace ++ l
  split : (a = [] ∧ l = []) ∨ Split s.cur a l
  le : s.tick ≤ s'.tick
  out : (o = .ok () ∧ rest = [] ∧ ∀ k, s.tick ≤ k → k < s'.tick → ws k ≠ .err) ∨
    (o = .err .io ∧ rest ≠ [] ∧ s.tick < s'.tick ∧ ws (s'.tick - 1) = .err) ∨
    (o = .fuel ∧ rest ≠ [] ∧ (∀ k, s.tick ≤ k → k < s'.tick → ws k ≠ .err) ∧ f + intrCount ws s.tick ≤ a.length + intrCount ws s'.tick)

theorem sPut_spec (ws : Sched) : ∀ (f : Nat) (b : Bytes) (s : FSt),
    ∃ a l, Put ws f b s (sPut ws f b s).1 (sPut ws f b s).2.1 (sPut ws f b s).2.2 a l := by
  intro f
  induction f with
  | zero =>
    intro b s
    cases b with
    | nil => exact ⟨[], [], rfl, rfl, rfl, rfl, (List.append_nil _).symm, .inl ⟨rfl, rfl⟩, Nat.le_refl _, .inl ⟨rfl, rfl, fun _ h h' => absurd h (Nat.not_le_of_lt h')⟩⟩
    | cons x b =>
      exact ⟨[], [], rfl, rfl, rfl, rfl, (List.append_nil _).symm, .inl ⟨rfl, rfl⟩, Nat.le_refl _,
        .inr (.inr ⟨rfl, nofun, fun _ h h' => absurd h (Nat.not_le_of_lt h'), by show 0 + _ ≤ 0 + _; exact Nat.le_refl _⟩)⟩
  | succ f ih =>
    intro b s
    cases b with
    | nil => exact ⟨[], [], rfl, rfl, rfl, rfl, (List.append_nil _).symm, .inl ⟨rfl, rfl⟩, Nat.le_refl _, .inl ⟨rfl, rfl, fun _ h h' => absurd h (Nat.not_le_of_lt h')⟩⟩
    | cons x b =>
      unfold sPut
      cases hc : ws s.tick with
      | give n =>
        dsimp only
        have hne : (x :: b).take (n + 1) ≠ [] := by rw [List.take_succ_cons]; exact nofun
        generalize ht : (x :: b).take (n + 1) = u at hne
        obtain ⟨a, l, h⟩ := ih ((x :: b).drop (n + 1)) { toWSt := s.toWSt.sysWrite u, tick := s.tick + 1 }
        have hs : s.toWSt.sysWrite u = { s.toWSt with file := writeAt s.file s.cur u, cur := s.cur + u.length, trace := s.trace ++ [.write s.cur u] } := by
          unfold WSt.sysWrite
          rw [if_neg (by cases u with | nil => exact absurd rfl hne | cons y u => simp)]
        generalize sPut ws f ((x :: b).drop (n + 1)) { toWSt := s.toWSt.sysWrite u, tick := s.tick + 1 } = r at h ⊢
        have hul : 0 < u.length := List.length_pos_iff.mpr hne
        refine ⟨u ++ a, .write s.cur u :: l, ?_, ?_, ?_, ?_, ?_, ?_, ?_, ?_⟩
        · rw [List.append_assoc, ← h.data, ← ht, List.take_append_drop]
        · rw [h.file]
          exact (sysWrite_append s.toWSt u a).1
        · rw [h.cur, hs, List.length_append]
          dsimp only
          omega
        · rw [h.buf, hs]
        · rw [h.trace, hs]
          dsimp only
          rw [List.append_assoc]
          rfl
        · right
          rcases h.split with ⟨ha, hl⟩ | h1
          · subst ha hl
            rw [List.append_nil]
            exact .one hne
          · rw [hs] at h1
            exact .more hne h1
        · have := h.le
          dsimp only at this
          omega
        · have hle := h.le
          have hi := intrCount_succ ws s.tick
          rw [hc] at hi
          simp only [reduceCtorEq, ↓reduceIte, Nat.add_zero] at hi
          have hno : ∀ k, s.tick ≤ k → ¬ s.tick + 1 ≤ k → ws k ≠ .err := by
            intro k h1 h2
            have : k = s.tick := by omega
            rw [this, hc]
            exact nofun
          rcases h.out with ⟨h1, h2, h3⟩ | ⟨h1, h2, h3, h4⟩ | ⟨h1, h2, h3, h4⟩
          · refine .inl ⟨h1, h2, fun k hk hk' => ?_⟩
            by_cases hk1 : s.tick + 1 ≤ k
            · exact h3 k hk1 hk'
            · exact hno k hk hk1
          · exact .inr (.inl ⟨h1, h2, by dsimp only at h3; omega, h4⟩)
          · refine .inr (.inr ⟨h1, h2, fun k hk hk' => ?_, ?_⟩)
            · by_cases hk1 : s.tick + 1 ≤ k
              · exact h3 k hk1 hk'
              · exact hno k hk hk1
            · dsimp only at h4
              rw [List.length_append]
              omega
      | intr =>
        dsimp only
        obtain ⟨a, l, h⟩ := ih (x :: b) { s with tick := s.tick + 1 }
        generalize sPut ws f (x :: b) { s with tick := s.tick + 1 } = r at h ⊢
        have hle := h.le
        have hi := intrCount_succ ws s.tick
        rw [hc] at hi
        simp only [↓reduceIte] at hi
        have hno : ∀ k, s.tick ≤ k → ¬ s.tick + 1 ≤ k → ws k ≠ .err := by
          intro k h1 h2
          have : k = s.tick := by omega
          rw [this, hc]
          exact nofun
        refine ⟨a, l, h.data, h.file, h.cur, h.buf, h.trace, h.split, by dsimp only at hle; omega, ?_⟩
        rcases h.out with ⟨h1, h2, h3⟩ | ⟨h1, h2, h3, h4⟩ | ⟨h1, h2, h3, h4⟩
        · refine .inl ⟨h1, h2, fun k hk hk' => ?_⟩
          by_cases hk1 : s.tick + 1 ≤ k
          · exact h3 k hk1 hk'
          · exact hno k hk hk1
        · exact .inr (.inl ⟨h1, h2, by dsimp only at h3; omega, h4⟩)
        · refine .inr (.inr ⟨h1, h2, fun k hk hk' => ?_, ?_⟩)
          · by_cases hk1 : s.tick + 1 ≤ k
            · exact h3 k hk1 hk'
            · exact hno k hk hk1
          · dsimp only at h4
            omega
      | err =>
        dsimp only
        refine ⟨[], [], rfl, rfl, rfl, rfl, (List.append_nil _).symm, .inl ⟨rfl, rfl⟩, Nat.le_succ _, .inr (.inl ⟨rfl, nofun, Nat.lt_succ_self _, ?_⟩)⟩
        exact hc


/-! ### The calls of `write_all` -/

/-- The same file, cursor and buffer; the writes of the first state are those of the second one in parts. -/
structure SRel (s t : WSt) : Prop where
  file : t.file = s.file
  cur : t.cur = s.cur
  buf : t.buf = s.buf
  trace : Pieces t.trace s.trace

/-- There were not enough iterations, and so many interruptions. -/
def Tired {α} (ws : Sched) (e : Env) (o : Out α) (n : Nat) : Prop := o = .fuel ∧ e.fuel < intrCount ws n

/-- What the calls between `m` and `n` have to do with those of `write_all`, of which `cs` are the results. -/
structure Heard {α} (ws : Sched) (e : Env) (m : Nat) (o : Out α) (n : Nat) (cs : List (Option Nat)) : Prop where
  le : m ≤ n
  calls : ∀ k, m ≤ k → k < n → ws k = .err → ∃ j, some j ∈ cs
  blame : ∀ j, some j ∈ cs → (∃ k, m ≤ k ∧ k < n ∧ ws k = .err) ∨ Tired ws e o n

theorem Heard.refl {α} {ws : Sched} {e : Env} {m : Nat} {o : Out α} : Heard ws e m o m [] :=
  ⟨Nat.le_refl _, fun _ h h' => absurd h (Nat.not_le_of_lt h'), nofun⟩

/-- The same outcome, or there were not enough iterations, in which case it is as if the writer had failed. -/
def SMatch {α} (ws : Sched) (e : Env) (n : Nat) (o o' : Out α) : Prop := o' = o ∨ (Tired ws e o n ∧ o' = .err .io)

/-- What happens in the one program for some calls happens in the other one for the calls of `write_all`. -/
def SCSim {α} (c : Sched) (cap : Nat) (ws : Sched) (e : Env) (m : SC α) (f : FC α) : Prop :=
  ∀ x, ∃ cs : List (Option Nat), Heard ws e x.f.tick (m c cap ws e x).1 (m c cap ws e x).2.f.tick cs ∧
    ∀ fl (y : FCSt), y.b = x.b → SRel x.f.toWSt y.f.toWSt → fl.plays y.f.tick cs →
      (f c cap fl e y).2.b = (m c cap ws e x).2.b ∧ SRel (m c cap ws e x).2.f.toWSt (f c cap fl e y).2.f.toWSt ∧
      (f c cap fl e y).2.f.tick = y.f.tick + cs.length ∧
      SMatch ws e (m c cap ws e x).2.f.tick (m c cap ws e x).1 (f c cap fl e y).1

section
variable {c : Sched} {cap : Nat} {ws : Sched} {e : Env}

theorem SCSim.bind {α β} {m : SC α} {f : FC α} {m' : α → SC β} {f' : α → FC β} (h : SCSim c cap ws e m f)
    (h' : ∀ a, SCSim c cap ws e (m' a) (f' a)) : SCSim c cap ws e (m >>= m') (f >>= f') := by
  intro x
  obtain ⟨cs, h1, h2⟩ := h x
  show ∃ cs : List (Option Nat), Heard ws e x.f.tick (SC.bind m m' c cap ws e x).1 (SC.bind m m' c cap ws e x).2.f.tick cs ∧
    ∀ fl (y : FCSt), y.b = x.b → SRel x.f.toWSt y.f.toWSt → fl.plays y.f.tick cs →
      (FC.bind f f' c cap fl e y).2.b = (SC.bind m m' c cap ws e x).2.b ∧
      SRel (SC.bind m m' c cap ws e x).2.f.toWSt (FC.bind f f' c cap fl e y).2.f.toWSt ∧
      (FC.bind f f' c cap fl e y).2.f.tick = y.f.tick + cs.length ∧
      SMatch ws e (SC.bind m m' c cap ws e x).2.f.tick (SC.bind m m' c cap ws e x).1 (FC.bind f f' c cap fl e y).1
  unfold SC.bind
  generalize m c cap ws e x = r at *
  obtain ⟨o, x1⟩ := r
  dsimp only at h1 h2
  have stop : ∀ p : Out β, (∀ a, o ≠ .ok a) → (o = .fuel → p = .fuel) →
      (∀ (y : Faults × FCSt) k, f c cap y.1 e y.2 = k → k.1 = o → (FC.bind f f' c cap y.1 e y.2) = (p, k.2)) →
      ∃ cs : List (Option Nat), Heard ws e x.f.tick p x1.f.tick cs ∧
      ∀ fl (y : FCSt), y.b = x.b → SRel x.f.toWSt y.f.toWSt → fl.plays y.f.tick cs →
        (FC.bind f f' c cap fl e y).2.b = x1.b ∧
        SRel x1.f.toWSt (FC.bind f f' c cap fl e y).2.f.toWSt ∧
        (FC.bind f f' c cap fl e y).2.f.tick = y.f.tick + cs.length ∧
        SMatch ws e x1.f.tick p (FC.bind f f' c cap fl e y).1 := by
    intro p hne hf hp
    refine ⟨cs, ⟨h1.le, h1.calls, fun j hj => ?_⟩, fun fl y hb hr hpl => ?_⟩
    · rcases h1.blame j hj with h3 | ⟨h3, h4⟩
      · exact .inl h3
      · exact .inr ⟨hf h3, h4⟩
    · obtain ⟨h3, h4, h5, h6⟩ := h2 fl y hb hr hpl
      rcases h6 with h6 | ⟨⟨h6, h7⟩, h8⟩
      · rw [hp (fl, y) _ rfl h6]
        exact ⟨h3, h4, h5, .inl rfl⟩
      · unfold FC.bind
        generalize f c cap fl e y = k at *
        obtain ⟨k1, k2⟩ := k
        dsimp only at h8
        subst h8
        exact ⟨h3, h4, h5, .inr ⟨⟨hf h6, h7⟩, rfl⟩⟩
  cases o with
  | ok a =>
    obtain ⟨cs', h3, h4⟩ := h' a x1
    refine ⟨cs ++ cs', ⟨Nat.le_trans h1.le h3.le, fun k hk hk' hw => ?_, fun j hj => ?_⟩, fun fl y hb hr hpl => ?_⟩
    · by_cases hk1 : k < x1.f.tick
      · obtain ⟨j, hj⟩ := h1.calls k hk hk1 hw
        exact ⟨j, List.mem_append_left _ hj⟩
      · obtain ⟨j, hj⟩ := h3.calls k (by omega) hk' hw
        exact ⟨j, List.mem_append_right _ hj⟩
    · have ha := h1.le
      have hb := h3.le
      rcases List.mem_append.mp hj with hj | hj
      · rcases h1.blame j hj with ⟨k, h5, h6, h7⟩ | ⟨h5, -⟩
        · exact .inl ⟨k, h5, Nat.lt_of_lt_of_le h6 hb, h7⟩
        · cases h5
      · rcases h3.blame j hj with ⟨k, h5, h6, h7⟩ | h5
        · exact .inl ⟨k, Nat.le_trans ha h5, h6, h7⟩
        · exact .inr h5
    · obtain ⟨h5, h6, h7, h8⟩ := h2 fl y hb hr (Faults.plays_left hpl)
      unfold FC.bind
      generalize f c cap fl e y = k at *
      obtain ⟨k1, k2⟩ := k
      dsimp only at h5 h6 h7 h8
      rcases h8 with h8 | ⟨⟨h8, -⟩, -⟩
      · subst h8
        obtain ⟨h9, h10, h11, h12⟩ := h4 fl k2 h5 h6 (by rw [h7]; exact Faults.plays_right hpl)
        exact ⟨h9, h10, by dsimp only; rw [h11, h7, List.length_append, Nat.add_assoc], h12⟩
      · cases h8
  | err k =>
    refine stop (.err k) nofun nofun fun y r hr ho => ?_
    unfold FC.bind; rw [hr]; obtain ⟨r1, r2⟩ := r; dsimp only at ho; subst ho; rfl
  | panic =>
    refine stop .panic nofun nofun fun y r hr ho => ?_
    unfold FC.bind; rw [hr]; obtain ⟨r1, r2⟩ := r; dsimp only at ho; subst ho; rfl
  | fuel =>
    refine stop .fuel nofun (fun _ => rfl) fun y r hr ho => ?_
    unfold FC.bind; rw [hr]; obtain ⟨r1, r2⟩ := r; dsimp only at ho; subst ho; rfl

theorem SCSim.pure {α} (a : α) : SCSim c cap ws e (Pure.pure a) (Pure.pure a) :=
  fun _ => ⟨[], .refl, fun _ _ hb hr _ => ⟨hb, hr, rfl, .inl rfl⟩⟩

theorem SCSim.all {α} {m : α → SC Unit} {f : α → FC Unit} (h : ∀ a, SCSim c cap ws e (m a) (f a)) (l : List α) :
    SCSim c cap ws e (scAll m l) (fcAll f l) := by
  induction l with
  | nil => exact .pure ()
  | cons a l ih => exact .bind (h a) fun _ => ih

theorem SCSim.opt {α} {m : α → SC Unit} {f : α → FC Unit} (h : ∀ a, SCSim c cap ws e (m a) (f a)) (x : Option α) :
    SCSim c cap ws e (scOpt m x) (fcOpt f x) := by
  cases x with
  | none => exact .pure ()
  | some a => exact h a

/-- The reader does the same. -/
theorem SCSim.reader {α} (m : B α) : SCSim c cap ws e m.sc m.fc := by
  intro x
  refine ⟨[], .refl, fun fl y hb hr _ => ?_⟩
  unfold B.sc B.fc
  dsimp only
  rw [hb, show y.f.file = x.f.file from hr.file, show y.f.cur = x.f.cur from hr.cur]
  exact ⟨rfl, ⟨rfl, rfl, hr.buf, hr.trace⟩, rfl, .inl rfl⟩

/-! ### The writer alone -/

/-- The same for the writer alone. -/
def SSim {α} (c : Sched) (cap : Nat) (ws : Sched) (e : Env) (m : SW α) (f : FW α) : Prop := SCSim c cap ws e m.c f.c

theorem SW.c_bind {α β} (m : SW α) (f : α → SW β) : (m >>= f).c = m.c >>= fun a => (f a).c := by
  funext c cap ws e x
  show (SW.bind m f).c c cap ws e x = SC.bind m.c (fun a => (f a).c) c cap ws e x
  unfold SC.bind SW.c SW.bind
  dsimp only
  generalize m ws e x.f = r
  obtain ⟨o, s⟩ := r
  cases o <;> rfl

theorem FW.c_bind {α β} (m : FW α) (f : α → FW β) : (m >>= f).c = m.c >>= fun a => (f a).c := by
  funext c cap fl e x
  show (FW.bind m f).c c cap fl e x = FC.bind m.c (fun a => (f a).c) c cap fl e x
  unfold FC.bind FW.c FW.bind
  dsimp only
  generalize m fl e x.f = r
  obtain ⟨o, s⟩ := r
  cases o <;> rfl

theorem SSim.bind {α β} {m : SW α} {f : FW α} {m' : α → SW β} {f' : α → FW β} (h : SSim c cap ws e m f)
    (h' : ∀ a, SSim c cap ws e (m' a) (f' a)) : SSim c cap ws e (m >>= m') (f >>= f') := by
  unfold SSim
  rw [SW.c_bind, FW.c_bind]
  exact SCSim.bind h h'

theorem SSim.pure {α} (a : α) : SSim c cap ws e (Pure.pure a) (Pure.pure a) := SCSim.pure a

theorem SSim.all {α} {m : α → SW Unit} {f : α → FW Unit} (h : ∀ a, SSim c cap ws e (m a) (f a)) (l : List α) :
    SSim c cap ws e (sAll m l) (fAll f l) := by
  induction l with
  | nil => exact .pure ()
  | cons a l ih => exact .bind (h a) fun _ => ih

/-- To show it for the writer only the states of the writer matter. -/
theorem SSim.of {α} {m : SW α} {f : FW α} (h : ∀ s, ∃ cs : List (Option Nat), Heard ws e s.tick (m ws e s).1 (m ws e s).2.tick cs ∧
    ∀ fl (t : FSt), SRel s.toWSt t.toWSt → fl.plays t.tick cs →
      SRel (m ws e s).2.toWSt (f fl e t).2.toWSt ∧ (f fl e t).2.tick = t.tick + cs.length ∧
      SMatch ws e (m ws e s).2.tick (m ws e s).1 (f fl e t).1) : SSim c cap ws e m f := by
  intro x
  obtain ⟨cs, h1, h2⟩ := h x.f
  exact ⟨cs, h1, fun fl y hb hr hp => ⟨hb, h2 fl y.f hr hp⟩⟩

/-- Only the state without the number of calls changes, or nothing. -/
theorem SSim.step {α} {m : SW α} {f : FW α} (hm : ∀ s, (m ws e s).2.tick = s.tick) (h : ∀ s fl (t : FSt), SRel s.toWSt t.toWSt →
    SRel (m ws e s).2.toWSt (f fl e t).2.toWSt ∧ (f fl e t).2.tick = t.tick ∧ (f fl e t).1 = (m ws e s).1) : SSim c cap ws e m f :=
  .of fun s => ⟨[], by rw [hm]; exact .refl, fun fl t hr _ => ⟨(h s fl t hr).1, (h s fl t hr).2.1, .inl (h s fl t hr).2.2⟩⟩

theorem SSim.arith {α} (m : E α) : SSim c cap ws e m.sw m.fw := .step (fun _ => rfl) fun _ _ _ hr => ⟨hr, rfl, rfl⟩

/-- One loop is one call. -/
theorem put_sim {b : Bytes} (hb : b ≠ []) {s : FSt} {o : Out Unit} {rest : Bytes} {s' : FSt} {a : Bytes} {l : List Op}
    (h : Put ws (b.length + e.fuel) b s o rest s' a l) :
    ∃ d : Option Nat, Heard ws e s.tick o s'.tick [d] ∧
      ∀ t : WSt, SRel s.toWSt t →
        SRel s'.toWSt { t.sysWrite a with buf := s'.buf } ∧
        ((d = none ∧ o = .ok () ∧ a = b ∧ rest = []) ∨
          (∃ n, d = some n ∧ a = b.take n ∧ rest = b.drop n ∧ SMatch ws e s'.tick o (.err .io))) := by
  have hrel : ∀ t : WSt, SRel s.toWSt t → SRel s'.toWSt { t.sysWrite a with buf := s'.buf } := by
    intro t ht
    have h1 := h.file
    have h2 := h.cur
    have h3 := h.trace
    unfold WSt.sysWrite at h1 ⊢
    by_cases ha : a.isEmpty = true
    · rw [if_pos ha] at h1 ⊢
      have ha' : a = [] := List.isEmpty_iff.mp ha
      subst ha'
      rcases h.split with ⟨-, hl⟩ | hsp
      · subst hl
        rw [List.append_nil] at h3
        exact ⟨ht.file.trans h1.symm, ht.cur.trans h2.symm, rfl, by rw [h3]; exact ht.trace⟩
      · generalize hz : ([] : Bytes) = z at hsp
        cases hsp with
        | one hb => exact absurd hz.symm hb
        | more ha _ => exact absurd (List.append_eq_nil_iff.mp hz.symm).1 ha
    · rw [if_neg ha] at h1 ⊢
      refine ⟨?_, ?_, rfl, ?_⟩
      · dsimp only
        rw [h1, ht.file, ht.cur]
      · dsimp only
        rw [h2, ht.cur]
      · dsimp only
        rcases h.split with ⟨hl, -⟩ | hsp
        · exact absurd (List.isEmpty_iff.mpr hl) ha
        · rw [h3, ht.cur]
          exact .write ht.trace hsp
  rcases h.out with ⟨h1, h2, h3⟩ | ⟨h1, h2, h3, h4⟩ | ⟨h1, h2, h3, h4⟩
  · refine ⟨none, ⟨h.le, fun k hk hk' hw => absurd hw (h3 k hk hk'), fun j hj => ?_⟩, fun t ht => ⟨hrel t ht, .inl ⟨rfl, h1, ?_, h2⟩⟩⟩
    · rw [List.mem_singleton] at hj; cases hj
    · have := h.data
      rw [h2, List.append_nil] at this
      exact this.symm
  · refine ⟨some a.length, ⟨h.le, fun _ _ _ _ => ⟨_, List.mem_singleton_self _⟩, fun j _ => .inl ⟨s'.tick - 1, by omega, by omega, h4⟩⟩,
      fun t ht => ⟨hrel t ht, .inr ⟨_, rfl, ?_, ?_, .inl h1.symm⟩⟩⟩
    · rw [h.data, List.take_left]
    · rw [h.data, List.drop_left]
  · have ht : Tired ws e o s'.tick := by
      refine ⟨h1, ?_⟩
      have h5 := congrArg List.length h.data
      rw [List.length_append] at h5
      have h6 : 0 < rest.length := List.length_pos_iff.mpr h2
      omega
    refine ⟨some a.length, ⟨h.le, fun _ _ _ _ => ⟨_, List.mem_singleton_self _⟩, fun j _ => .inr ht⟩,
      fun t ht' => ⟨hrel t ht', .inr ⟨_, rfl, ?_, ?_, .inr ⟨ht, rfl⟩⟩⟩⟩
    · rw [h.data, List.take_left]
    · rw [h.data, List.drop_left]

theorem sPut_nil (ws : Sched) (f : Nat) (s : FSt) : sPut ws f [] s = (.ok (), [], s) := by
  cases f <;> rfl

theorem SSim.sysWrite (b : Bytes) : SSim c cap ws e (sSysWrite b) (fSysWrite b) := by
  refine .of fun s => ?_
  unfold sSysWrite fSysWrite
  dsimp only
  cases hb : b.isEmpty
  · have hb' : b ≠ [] := fun h => by rw [h] at hb; cases hb
    obtain ⟨a, l, h⟩ := sPut_spec ws (b.length + e.fuel) b s
    generalize sPut ws (b.length + e.fuel) b s = r at *
    obtain ⟨d, h1, h2⟩ := put_sim hb' h
    refine ⟨[d], h1, fun fl t hr hp => ?_⟩
    have hd : fl.call t.tick = d := hp 0 (Nat.zero_lt_succ _)
    obtain ⟨h3, h4⟩ := h2 t.toWSt hr
    rw [if_neg (by simp), hd]
    have h5 : ∀ u, { t.toWSt.sysWrite u with buf := r.2.2.buf } = t.toWSt.sysWrite u := by
      intro u
      rw [h.buf, ← show t.buf = s.buf from hr.buf]
      unfold WSt.sysWrite
      split <;> rfl
    rw [h5] at h3
    rcases h4 with ⟨h6, h7, h8, h9⟩ | ⟨n, h6, h7, h8, h9⟩
    · subst h6 h8
      exact ⟨h3, rfl, .inl h7.symm⟩
    · subst h6 h7
      exact ⟨h3, rfl, h9⟩
  · have hb' : b = [] := List.isEmpty_iff.mp hb
    subst hb'
    rw [sPut_nil]
    exact ⟨[], .refl, fun _ _ hr _ => ⟨hr, rfl, .inl rfl⟩⟩

theorem SSim.flushBuf : SSim c cap ws e sFlushBuf fFlushBuf := by
  refine .of fun s => ?_
  unfold sFlushBuf fFlushBuf
  dsimp only
  by_cases hb' : s.buf = []
  · rw [hb', sPut_nil]
    refine ⟨[], .refl, fun _ t hr _ => ?_⟩
    have h1 : t.buf = [] := (show t.buf = s.buf from hr.buf).trans hb'
    rw [h1, List.isEmpty_nil, if_pos rfl]
    exact ⟨⟨hr.file, hr.cur, h1, hr.trace⟩, rfl, .inl rfl⟩
  · obtain ⟨a, l, h⟩ := sPut_spec ws (s.buf.length + e.fuel) s.buf s
    generalize sPut ws (s.buf.length + e.fuel) s.buf s = r at *
    obtain ⟨d, h1, h2⟩ := put_sim hb' h
    refine ⟨[d], h1, fun fl t hr hp => ?_⟩
    have hd : fl.call t.tick = d := hp 0 (Nat.zero_lt_succ _)
    obtain ⟨h3, h4⟩ := h2 t.toWSt hr
    have ht1 : t.buf = s.buf := hr.buf
    rw [ht1, if_neg (by rw [List.isEmpty_iff]; exact hb'), hd]
    rcases h4 with ⟨h6, h7, h8, h9⟩ | ⟨n, h6, h7, h8, h9⟩
    · subst h6
      rw [h8] at h3
      refine ⟨?_, rfl, .inl h7.symm⟩
      dsimp only
      rw [h9]
      unfold WSt.flushBuf
      rw [ht1]
      exact ⟨h3.file, h3.cur, rfl, h3.trace⟩
    · subst h6
      rw [h7] at h3
      refine ⟨?_, rfl, h9⟩
      dsimp only
      rw [h8]
      exact ⟨h3.file, h3.cur, rfl, h3.trace⟩

theorem SSim.seekStart (n : Nat) : SSim c cap ws e (sSeekStart n) (fSeekStart n) := by
  refine .bind .flushBuf fun _ => .step (fun s => by split <;> rfl) fun s fl t hr => ?_
  split
  · exact ⟨⟨hr.file, rfl, hr.buf, hr.trace⟩, rfl, rfl⟩
  · exact ⟨hr, rfl, rfl⟩

theorem SSim.seekCur (n : Nat) : SSim c cap ws e (sSeekCur n) (fSeekCur n) := by
  refine .bind .flushBuf fun _ => .step (fun s => by split <;> rfl) fun s fl t hr => ?_
  rw [show t.cur = s.cur from hr.cur]
  split
  · exact ⟨⟨hr.file, rfl, hr.buf, hr.trace⟩, rfl, rfl⟩
  · exact ⟨hr, rfl, rfl⟩

theorem SSim.writeDirect (b : Bytes) : SSim c cap ws e (sWriteDirect b) (fWriteDirect b) := by
  refine .of fun s => ?_
  unfold sWriteDirect fWriteDirect
  by_cases h : b.length ≥ e.cap
  · obtain ⟨cs, h1, h2⟩ := SSim.sysWrite (c := c) (cap := cap) (ws := ws) (e := e) b ⟨{ cur := 0 }, s⟩
    simp only [if_pos h]
    exact ⟨cs, h1, fun fl t hr hp => (h2 fl ⟨{ cur := 0 }, t⟩ rfl hr hp).2⟩
  · simp only [if_neg h]
    exact ⟨[], .refl, fun _ t hr _ => ⟨⟨hr.file, hr.cur, by dsimp only; rw [show t.buf = s.buf from hr.buf], hr.trace⟩, rfl, .inl rfl⟩⟩

theorem SSim.writeAll (b : Bytes) : SSim c cap ws e (sWriteAll b) (fWriteAll b) := by
  refine .of fun s => ?_
  unfold sWriteAll fWriteAll
  by_cases h : b.length < e.cap - s.buf.length
  · refine ⟨[], by rw [if_pos h]; exact .refl, fun _ t hr _ => ?_⟩
    have hb : t.buf = s.buf := hr.buf
    rw [hb, if_pos h, if_pos h]
    exact ⟨⟨hr.file, hr.cur, rfl, hr.trace⟩, rfl, .inl rfl⟩
  · by_cases h' : b.length > e.cap - s.buf.length
    · obtain ⟨cs, h1, h2⟩ := SSim.bind (c := c) (cap := cap) (ws := ws) (e := e) .flushBuf (fun _ => SSim.writeDirect b) ⟨{ cur := 0 }, s⟩
      rw [if_neg h, if_pos h']
      refine ⟨cs, h1, fun fl t hr hp => ?_⟩
      rw [show t.buf = s.buf from hr.buf, if_neg h, if_pos h']
      exact (h2 fl ⟨{ cur := 0 }, t⟩ rfl hr hp).2
    · obtain ⟨cs, h1, h2⟩ := SSim.writeDirect (c := c) (cap := cap) (ws := ws) (e := e) b ⟨{ cur := 0 }, s⟩
      rw [if_neg h, if_neg h']
      refine ⟨cs, h1, fun fl t hr hp => ?_⟩
      rw [show t.buf = s.buf from hr.buf, if_neg h, if_neg h']
      exact (h2 fl ⟨{ cur := 0 }, t⟩ rfl hr hp).2

/-- What the loop around `ftruncate` does: it is interrupted, and then there is a result. -/
theorem sTruncate_spec (ws : Sched) (n : Nat) : ∀ (f : Nat) (s : FSt), ∃ k,
    (∀ j, s.tick ≤ j → j < s.tick + k → ws j = .intr) ∧
    ((∃ g, ws (s.tick + k) = .give g ∧ sTruncate ws n f s =
        (.ok (), { s with file := fileSetLen s.file n, trace := s.trace ++ [.setLen n], tick := s.tick + k + 1 })) ∨
      (ws (s.tick + k) = .err ∧ sTruncate ws n f s = (.err .io, { s with tick := s.tick + k + 1 })) ∨
      (k = f ∧ sTruncate ws n f s = (.fuel, { s with tick := s.tick + k }))) := by
  intro f
  induction f with
  | zero => exact fun s => ⟨0, fun j h h' => absurd h (Nat.not_le_of_lt h'), .inr (.inr ⟨rfl, rfl⟩)⟩
  | succ f ih =>
    intro s
    unfold sTruncate
    cases hc : ws s.tick with
    | give g => exact ⟨0, fun j h h' => absurd h (Nat.not_le_of_lt h'), .inl ⟨g, hc, rfl⟩⟩
    | err => exact ⟨0, fun j h h' => absurd h (Nat.not_le_of_lt h'), .inr (.inl ⟨hc, rfl⟩)⟩
    | intr =>
      obtain ⟨k, h1, h2⟩ := ih { s with tick := s.tick + 1 }
      dsimp only at h1 h2 ⊢
      refine ⟨k + 1, fun j hj hj' => ?_, ?_⟩
      · by_cases hj1 : j = s.tick
        · rw [hj1, hc]
        · exact h1 j (by omega) (by omega)
      · rw [show s.tick + (k + 1) = s.tick + 1 + k by omega]
        rcases h2 with h2 | h2 | ⟨h2, h3⟩
        · exact .inl h2
        · exact .inr (.inl h2)
        · exact .inr (.inr ⟨by omega, h3⟩)

theorem intrCount_run (ws : Sched) (m k : Nat) (h : ∀ j, m ≤ j → j < m + k → ws j = .intr) :
    intrCount ws (m + k) = intrCount ws m + k := by
  induction k with
  | zero => rfl
  | succ k ih =>
    rw [show m + (k + 1) = m + k + 1 by omega, intrCount_succ, ih fun j hj hj' => h j hj (by omega), if_pos (h _ (by omega) (by omega))]
    omega

theorem SSim.setLen (n : Nat) : SSim c cap ws e (sSetLen n) (fSetLen n) := by
  refine .of fun s => ?_
  unfold sSetLen fSetLen
  by_cases h : n ≤ e.maxPos
  · simp only [if_pos h]
    obtain ⟨k, h1, h2⟩ := sTruncate_spec ws n (e.fuel + 1) s
    have hno : ∀ j, s.tick ≤ j → j < s.tick + k → ws j ≠ .err := fun j hj hj' => by rw [h1 j hj hj']; exact nofun
    rcases h2 with ⟨g, h3, h4⟩ | ⟨h3, h4⟩ | ⟨h3, h4⟩
    · rw [h4]
      refine ⟨[none], ⟨by dsimp only; omega, fun j hj hj' hw => ?_, fun j hj => (by rw [List.mem_singleton] at hj; cases hj)⟩, fun fl t hr hp => ?_⟩
      · by_cases hjk : j < s.tick + k
        · exact absurd hw (hno j hj hjk)
        · rw [show j = s.tick + k by dsimp only at hj'; omega, h3] at hw
          cases hw
      · rw [show fl.call t.tick = none from hp 0 (Nat.zero_lt_succ _)]
        exact ⟨⟨by dsimp only; rw [show t.file = s.file from hr.file], hr.cur, hr.buf, .setLen n hr.trace⟩, rfl, .inl rfl⟩
    · rw [h4]
      refine ⟨[some 0], ⟨by dsimp only; omega, fun _ _ _ _ => ⟨0, List.mem_singleton_self _⟩,
        fun _ _ => .inl ⟨s.tick + k, by omega, Nat.lt_succ_self _, h3⟩⟩, fun fl t hr hp => ?_⟩
      rw [show fl.call t.tick = some 0 from hp 0 (Nat.zero_lt_succ _)]
      exact ⟨⟨hr.file, hr.cur, hr.buf, hr.trace⟩, rfl, .inl rfl⟩
    · rw [h4]
      have ht : Tired ws e (Out.fuel : Out Unit) (s.tick + k) := by
        refine ⟨rfl, ?_⟩
        rw [intrCount_run ws s.tick k h1]
        omega
      refine ⟨[some 0], ⟨by dsimp only; omega, fun _ _ _ _ => ⟨0, List.mem_singleton_self _⟩, fun _ _ => .inr ht⟩, fun fl t hr hp => ?_⟩
      rw [show fl.call t.tick = some 0 from hp 0 (Nat.zero_lt_succ _)]
      exact ⟨⟨hr.file, hr.cur, hr.buf, hr.trace⟩, rfl, .inr ⟨ht, rfl⟩⟩
  · simp only [if_neg h]
    exact ⟨[], .refl, fun _ _ hr _ => ⟨hr, rfl, .inl rfl⟩⟩

theorem SSim.emit (m : Wr Unit) : SSim c cap ws e (sEmit m) (fEmit m) := by
  have h1 : sEmit m = SW.bind (fun ws e s => sAll sWriteAll (m e).1 ws e s) (fun _ _ e s => ((m e).2, s)) := by
    funext ws e s
    unfold sEmit SW.bind
    dsimp only
    generalize sAll sWriteAll (m e).1 ws e s = r
    obtain ⟨o, s1⟩ := r
    cases o <;> rfl
  have h2 : fEmit m = FW.bind (fun fl e s => fAll fWriteAll (m e).1 fl e s) (fun _ _ e s => ((m e).2, s)) := by
    funext fl e s
    unfold fEmit FW.bind
    dsimp only
    generalize fAll fWriteAll (m e).1 fl e s = r
    obtain ⟨o, s1⟩ := r
    cases o <;> rfl
  rw [h1, h2]
  exact SSim.bind (m := fun ws e s => sAll sWriteAll (m e).1 ws e s) (f := fun fl e s => fAll fWriteAll (m e).1 fl e s)
    (m' := fun _ _ e s => ((m e).2, s)) (f' := fun _ _ e s => ((m e).2, s))
    (SSim.all (c := c) (cap := cap) (ws := ws) (e := e) (fun b => .writeAll b) (m e).1) fun _ => .step (fun _ => rfl) fun _ _ _ hr => ⟨hr, rfl, rfl⟩

theorem SSim.patchHead (d : Int) (a : AtomBounds) : SSim c cap ws e (sPatchHead d a) (fPatchHead d a) := by
  refine .bind (.arith _) fun n => .bind (.seekStart _) fun _ => ?_
  by_cases h : a.size.ext = true
  · rw [if_pos h, if_pos h]
    exact .bind (.writeAll _) fun _ => .bind (.seekCur _) fun _ => .writeAll _
  · rw [if_neg h, if_neg h]
    exact .writeAll _

theorem SSim.fill (w : Nat) (d : Int) (l : List Nat) : SSim c cap ws e
    (sAll (fun co => do let n ← (addI (asI64 co) d).sw; sWriteAll (toBe w (asU64 n))) l)
    (fAll (fun co => do let n ← (addI (asI64 co) d).fw; fWriteAll (toBe w (asU64 n))) l) :=
  .all (fun _ => .bind (.arith _) fun _ => .writeAll _) l

theorem SCSim.patchTable (w : Nat) (d : Int) (a : AtomBounds) : SCSim c cap ws e (sPatchTable w d a) (fPatchTableBuf w d a) :=
  SCSim.bind (SSim.arith a.contentPos) fun pos => SCSim.bind (.reader _) fun y =>
    SSim.bind (.seekStart y.1) fun _ => SSim.bind (.fill w d y.2) fun _ => .flushBuf

theorem SCSim.patchStbl (d : Int) (b : StblBounds) : SCSim c cap ws e (sPatchStbl d b) (fPatchStblBuf d b) :=
  SCSim.bind (.opt (.patchTable 4 d) _) fun _ => .opt (.patchTable 8 d) _

theorem SCSim.writePhase (mdatPos : Nat) (moov : MoovBounds) (p : Plan) (oldLen : Nat) (moved : Bytes) (atoms : List AtomData) :
    SCSim c cap ws e (sWritePhase mdatPos moov p oldLen moved atoms) (fWritePhaseBuf mdatPos moov p oldLen moved atoms) := by
  have h : SSim c cap ws e (do
    sAll (sPatchHead p.lenDiff) p.updateAtoms.reverse
    let n ← (addI (asI64 oldLen) p.lenDiff).sw
    sSetLen (asU64 n)
    sSeekStart p.newAtomsStart
    sEmit (newAtomsWr p atoms)
    let m ← (addI (asI64 p.movedDataStart) p.lenDiff).sw
    sSeekStart (asU64 m)
    sWriteAll moved
    sFlush : SW Unit) (do
    fAll (fPatchHead p.lenDiff) p.updateAtoms.reverse
    let n ← (addI (asI64 oldLen) p.lenDiff).fw
    fSetLen (asU64 n)
    fSeekStart p.newAtomsStart
    fEmit (newAtomsWr p atoms)
    let m ← (addI (asI64 p.movedDataStart) p.lenDiff).fw
    fSeekStart (asU64 m)
    fWriteAll moved
    fFlush : FW Unit) :=
    .bind (.all (.patchHead _) _) fun _ => .bind (.arith _) fun _ => .bind (.setLen _) fun _ => .bind (.seekStart _) fun _ =>
      .bind (.emit _) fun _ => .bind (.arith _) fun _ => .bind (.seekStart _) fun _ => .bind (.writeAll _) fun _ => .flushBuf
  unfold sWritePhase fWritePhaseBuf
  by_cases hm : mdatPos > moov.bounds.pos
  · simp only [if_pos hm]
    exact .bind (.all (.patchStbl _) _) fun _ => h
  · simp only [if_neg hm]
    exact .bind (.pure ()) fun _ => h

/-- The save, with the calls of `write_all`. -/
theorem writeTagShort_run (c : Sched) (cap : Nat) (ws : Sched) (e : Env) (F : Bytes) (pos : Nat) (atoms : List AtomData) :
    ∃ fl : Faults,
      let x := writeTagShort c cap ws e F pos atoms
      let y := writeTagFBuf c cap fl e F pos atoms
      y.2.b = x.2.b ∧ SRel x.2.f.toWSt y.2.f.toWSt ∧ SMatch ws e x.2.f.tick x.1 y.1 ∧
      ((∃ k < x.2.f.tick, ws k = .err) → ∃ j < y.2.f.tick, ∃ n, fl.call j = some n) ∧
      (∀ j n, fl.call j = some n → (∃ k < x.2.f.tick, ws k = .err) ∨ e.fuel < intrCount ws x.2.f.tick) := by
  obtain ⟨cs, h1, h2⟩ := SCSim.bind (c := c) (cap := cap) (ws := ws) (e := e) (.reader (preparePhaseBuf atoms))
    (fun y => SCSim.writePhase y.1 y.2.1 y.2.2.1 y.2.2.2.1 y.2.2.2.2 atoms) ⟨{ cur := pos }, { file := F, cur := pos }⟩
  change Heard ws e 0 _ _ cs at h1
  generalize hX : ((preparePhaseBuf atoms).sc >>= fun y => sWritePhase y.1 y.2.1 y.2.2.1 y.2.2.2.1 y.2.2.2.2 atoms) c cap ws e ⟨{ cur := pos }, { file := F, cur := pos }⟩ = X at h1 h2
  obtain ⟨cs', h3, h4⟩ := SSim.flushBuf (c := c) (cap := cap) (ws := ws) (e := e) X.2
  let fl : Faults := ⟨fun j => (cs ++ cs').getD j none, false⟩
  have hpl : fl.plays 0 (cs ++ cs') := plays_getD _ _
  obtain ⟨h5, h6, h7, h8⟩ := h2 fl ⟨{ cur := pos }, { file := F, cur := pos }⟩ rfl ⟨rfl, rfl, rfl, .nil⟩ (Faults.plays_left hpl)
  generalize hY : ((preparePhaseBuf atoms).fc >>= fun y => fWritePhaseBuf y.1 y.2.1 y.2.2.1 y.2.2.2.1 y.2.2.2.2 atoms) c cap fl e ⟨{ cur := pos }, { file := F, cur := pos }⟩ = Y at h5 h6 h7 h8
  obtain ⟨-, h9, h10, -⟩ := h4 fl Y.2 h5 h6 (by rw [h7]; exact Faults.plays_right hpl)
  have hx : writeTagShort c cap ws e F pos atoms = (X.1, ⟨X.2.b, (sFlushBuf ws e X.2.f).2⟩) := by rw [← hX]; rfl
  have hy : writeTagFBuf c cap fl e F pos atoms = (Y.1, ⟨Y.2.b, (fFlushBuf fl e Y.2.f).2⟩) := by rw [← hY]; rfl
  have hle : X.2.f.tick ≤ (sFlushBuf ws e X.2.f).2.tick := h3.le
  have hlen : (fFlushBuf fl e Y.2.f).2.tick = (cs ++ cs').length := by
    change (fFlushBuf fl e Y.2.f).2.tick = _ at h10
    rw [h10, h7, List.length_append]
    show 0 + _ + _ = _
    omega
  refine ⟨fl, ?_⟩
  rw [hx, hy]
  refine ⟨h5, h9, ?_, fun ⟨k, hk, hw⟩ => ?_, fun j n hj => ?_⟩
  · rcases h8 with h8 | ⟨⟨h8, h11⟩, h12⟩
    · exact .inl h8
    · exact .inr ⟨⟨h8, Nat.lt_of_lt_of_le h11 (intrCount_mono ws hle)⟩, h12⟩
  · have hmem : ∃ n, some n ∈ cs ++ cs' := by
      by_cases hk1 : k < X.2.f.tick
      · obtain ⟨n, hn⟩ := h1.calls k (Nat.zero_le _) hk1 hw
        exact ⟨n, List.mem_append_left _ hn⟩
      · obtain ⟨n, hn⟩ := h3.calls k (Nat.le_of_not_lt hk1) hk hw
        exact ⟨n, List.mem_append_right _ hn⟩
    obtain ⟨n, hn⟩ := hmem
    obtain ⟨j, hj, hj'⟩ := List.mem_iff_getElem.mp hn
    have := hpl j hj
    rw [Nat.zero_add, hj'] at this
    exact ⟨j, by rw [hlen]; exact hj, n, this⟩
  · have hmem : some n ∈ cs ++ cs' := by
      change (cs ++ cs').getD j none = some n at hj
      rw [List.getD_eq_getElem?_getD] at hj
      by_cases hjl : j < (cs ++ cs').length
      · rw [List.getElem?_eq_getElem hjl] at hj
        change (cs ++ cs')[j] = some n at hj
        rw [← hj]
        exact List.getElem_mem hjl
      · rw [List.getElem?_eq_none (by omega)] at hj
        cases hj
    rcases List.mem_append.mp hmem with hm | hm
    · rcases h1.blame n hm with ⟨k, -, h11, h12⟩ | ⟨-, h11⟩
      · exact .inl ⟨k, Nat.lt_of_lt_of_le h11 hle, h12⟩
      · exact .inr (Nat.lt_of_lt_of_le h11 (intrCount_mono ws hle))
    · rcases h3.blame n hm with ⟨k, -, h11, h12⟩ | ⟨-, h11⟩
      · exact .inl ⟨k, h11, h12⟩
      · exact .inr h11

end

/-! ### Dumping -/

theorem writeAt_end (F b : Bytes) : writeAt F F.length b = F ++ b := by
  have := writeAt_append [] 0 F b
  rw [Nat.zero_add] at this
  unfold writeAt at this ⊢
  simp

/-- What has been done when some parts of the dump were written. -/
structure Dumped (ws : Sched) (e : Env) (cs : List Bytes) (s : FSt) (r : Out Unit × FSt) (a rest : Bytes) : Prop where
  data : cs.flatten = a ++ rest
  file : r.2.file = s.file ++ a
  cur : r.2.cur = r.2.file.length
  le : s.tick ≤ r.2.tick
  out : (r.1 = .ok () ∧ rest = [] ∧ ∀ k, s.tick ≤ k → k < r.2.tick → ws k ≠ .err) ∨
    (r.1 = .err .io ∧ s.tick < r.2.tick ∧ ws (r.2.tick - 1) = .err) ∨
    (r.1 = .fuel ∧ (∀ k, s.tick ≤ k → k < r.2.tick → ws k ≠ .err) ∧ e.fuel < intrCount ws r.2.tick)

theorem sysWrite_end {s : WSt} (h : s.cur = s.file.length) (a : Bytes) : (s.sysWrite a).file = s.file ++ a := by
  unfold WSt.sysWrite
  split
  · rename_i ha
    rw [List.isEmpty_iff.mp ha, List.append_nil]
  · dsimp only
    rw [h, writeAt_end]

theorem sAll_dumped (ws : Sched) (e : Env) (cs : List Bytes) : ∀ s : FSt, s.cur = s.file.length →
    ∃ a rest, Dumped ws e cs s (sAll sSysWrite cs ws e s) a rest := by
  induction cs with
  | nil =>
    intro s hs
    exact ⟨[], [], rfl, (List.append_nil _).symm, hs, Nat.le_refl _, .inl ⟨rfl, rfl, fun _ h h' => absurd h (Nat.not_le_of_lt h')⟩⟩
  | cons b cs ih =>
    intro s hs
    obtain ⟨a, l, h⟩ := sPut_spec ws (b.length + e.fuel) b s
    have hx : sAll sSysWrite (b :: cs) ws e s = SW.bind (sSysWrite b) (fun _ => sAll sSysWrite cs) ws e s := rfl
    rw [hx]
    have hw : sSysWrite b ws e s = ((sPut ws (b.length + e.fuel) b s).1, (sPut ws (b.length + e.fuel) b s).2.2) := rfl
    unfold SW.bind
    rw [hw]
    generalize sPut ws (b.length + e.fuel) b s = r at *
    obtain ⟨o, rest, s1⟩ := r
    dsimp only at h ⊢
    have hf : s1.file = s.file ++ a := h.file.trans (sysWrite_end hs a)
    have hc : s1.cur = s1.file.length := by rw [h.cur, hf, List.length_append, hs]
    have hd := h.data
    rcases h.out with ⟨h1, h2, h3⟩ | ⟨h1, h2, h3, h4⟩ | ⟨h1, h2, h3, h4⟩
    · subst h1 h2
      dsimp only
      obtain ⟨a', rest', g⟩ := ih s1 hc
      generalize sAll sSysWrite cs ws e s1 = r2 at *
      have hle := h.le
      have gle := g.le
      refine ⟨a ++ a', rest', ?_, ?_, g.cur, Nat.le_trans hle gle, ?_⟩
      · rw [List.flatten_cons, g.data, hd, List.append_nil, List.append_assoc]
      · rw [g.file, hf, List.append_assoc]
      · have hno : (∀ k, s1.tick ≤ k → k < r2.2.tick → ws k ≠ .err) → ∀ k, s.tick ≤ k → k < r2.2.tick → ws k ≠ .err := by
          intro hh k hk hk'
          by_cases hk1 : k < s1.tick
          · exact h3 k hk hk1
          · exact hh k (by omega) hk'
        rcases g.out with ⟨g1, g2, g3⟩ | ⟨g1, g2, g3⟩ | ⟨g1, g2, g3⟩
        · exact .inl ⟨g1, g2, hno g3⟩
        · exact .inr (.inl ⟨g1, by omega, g3⟩)
        · exact .inr (.inr ⟨g1, hno g2, g3⟩)
    · subst h1
      refine ⟨a, rest ++ cs.flatten, by rw [List.flatten_cons, hd, List.append_assoc], hf, hc, h.le, .inr (.inl ⟨rfl, h3, h4⟩)⟩
    · subst h1
      refine ⟨a, rest ++ cs.flatten, by rw [List.flatten_cons, hd, List.append_assoc], hf, hc, h.le, .inr (.inr ⟨rfl, h3, ?_⟩)⟩
      have h5 := congrArg List.length hd
      rw [List.length_append] at h5
      have h6 : 0 < rest.length := List.length_pos_iff.mpr h2
      dsimp only
      omega

/-! ### Counting the calls -/

/-- Every call writes, sets the length, or is wasted. -/
def Counted (ws : Sched) (s : FSt) : Prop := s.tick = s.trace.length + wasted ws s.tick

theorem wasted_succ (ws : Sched) (n : Nat) : wasted ws (n + 1) = wasted ws n + match ws n with | .give _ => 0 | _ => 1 := by
  unfold wasted
  rw [List.range_succ, List.countP_append, List.countP_singleton]
  cases ws n <;> rfl

theorem sPut_counted (ws : Sched) : ∀ (f : Nat) (b : Bytes) (s : FSt), Counted ws s → Counted ws (sPut ws f b s).2.2 := by
  intro f
  induction f with
  | zero => intro b s h; cases b <;> exact h
  | succ f ih =>
    intro b s h
    cases b with
    | nil => exact h
    | cons x b =>
      unfold sPut
      have hw := wasted_succ ws s.tick
      unfold Counted at h
      cases hc : ws s.tick with
      | give n =>
        rw [hc] at hw
        refine ih _ _ ?_
        unfold Counted WSt.sysWrite
        rw [if_neg (by rw [List.take_succ_cons]; exact Bool.noConfusion)]
        dsimp only at hw ⊢
        rw [List.length_append, List.length_singleton]
        omega
      | intr =>
        rw [hc] at hw
        refine ih _ _ ?_
        unfold Counted
        dsimp only at hw ⊢
        omega
      | err =>
        rw [hc] at hw
        unfold Counted
        dsimp only at hw ⊢
        omega

theorem sTruncate_counted (ws : Sched) (n : Nat) : ∀ (f : Nat) (s : FSt), Counted ws s → Counted ws (sTruncate ws n f s).2 := by
  intro f
  induction f with
  | zero => intro s h; exact h
  | succ f ih =>
    intro s h
    unfold sTruncate
    have hw := wasted_succ ws s.tick
    unfold Counted at h
    cases hc : ws s.tick with
    | give n =>
      rw [hc] at hw
      unfold Counted
      dsimp only at hw ⊢
      rw [List.length_append, List.length_singleton]
      omega
    | intr =>
      rw [hc] at hw
      refine ih _ ?_
      unfold Counted
      dsimp only at hw ⊢
      omega
    | err =>
      rw [hc] at hw
      unfold Counted
      dsimp only at hw ⊢
      omega

/-- The calls stay counted. -/
def SCount {α} (ws : Sched) (e : Env) (m : SW α) : Prop := ∀ s, Counted ws s → Counted ws (m ws e s).2

section
variable {ws : Sched} {e : Env}

theorem SCount.bind {α β} {m : SW α} {f : α → SW β} (h : SCount ws e m) (hf : ∀ a, SCount ws e (f a)) : SCount ws e (m >>= f) := by
  intro s hs
  show Counted ws (SW.bind m f ws e s).2
  have h1 := h s hs
  unfold SW.bind
  generalize m ws e s = r at *
  obtain ⟨o, s1⟩ := r
  cases o with
  | ok a => exact hf a s1 h1
  | err k => exact h1
  | panic => exact h1
  | fuel => exact h1

theorem SCount.all {α} {f : α → SW Unit} (h : ∀ a, SCount ws e (f a)) (l : List α) : SCount ws e (sAll f l) := by
  induction l with
  | nil => exact fun _ hs => hs
  | cons a l ih => exact .bind (h a) fun _ => ih

theorem SCount.arith {α} (m : E α) : SCount ws e m.sw := fun _ h => h

theorem SCount.flushBuf : SCount ws e sFlushBuf := fun s h => sPut_counted ws _ _ s h

theorem SCount.sysWrite (b : Bytes) : SCount ws e (sSysWrite b) := fun s h => sPut_counted ws _ _ s h

theorem SCount.writeDirect (b : Bytes) : SCount ws e (sWriteDirect b) := by
  intro s h
  unfold sWriteDirect
  split
  · exact SCount.sysWrite b s h
  · exact h

theorem SCount.writeAll (b : Bytes) : SCount ws e (sWriteAll b) := by
  intro s h
  unfold sWriteAll
  split
  · exact h
  · split
    · exact SCount.bind .flushBuf (fun _ => SCount.writeDirect b) s h
    · exact SCount.writeDirect b s h

theorem SCount.seekStart (n : Nat) : SCount ws e (sSeekStart n) :=
  .bind .flushBuf fun _ s h => by split <;> exact h

theorem SCount.seekCur (n : Nat) : SCount ws e (sSeekCur n) :=
  .bind .flushBuf fun _ s h => by split <;> exact h

theorem SCount.setLen (n : Nat) : SCount ws e (sSetLen n) := by
  intro s h
  unfold sSetLen
  split
  · exact sTruncate_counted ws n _ s h
  · exact h

theorem SCount.emit (m : Wr Unit) : SCount ws e (sEmit m) := by
  intro s h
  have h1 := SCount.all (ws := ws) (e := e) SCount.writeAll (m e).1 s h
  unfold sEmit
  generalize sAll sWriteAll (m e).1 ws e s = r at *
  obtain ⟨o, s1⟩ := r
  cases o <;> exact h1

theorem SCount.patchHead (d : Int) (a : AtomBounds) : SCount ws e (sPatchHead d a) := by
  refine .bind (.arith _) fun n => .bind (.seekStart _) fun _ => ?_
  split
  · exact .bind (.writeAll _) fun _ => .bind (.seekCur _) fun _ => .writeAll _
  · exact .writeAll _

/-- The calls stay counted, also if the reader does something. -/
def SCCount {α} (ws : Sched) (e : Env) (m : SC α) : Prop := ∀ c cap x, Counted ws x.f → Counted ws (m c cap ws e x).2.f

theorem SCCount.bind {α β} {m : SC α} {f : α → SC β} (h : SCCount ws e m) (hf : ∀ a, SCCount ws e (f a)) : SCCount ws e (m >>= f) := by
  intro c cap x hs
  show Counted ws (SC.bind m f c cap ws e x).2.f
  have h1 := h c cap x hs
  unfold SC.bind
  generalize m c cap ws e x = r at *
  obtain ⟨o, s1⟩ := r
  cases o with
  | ok a => exact hf a c cap s1 h1
  | err k => exact h1
  | panic => exact h1
  | fuel => exact h1

theorem SCCount.pure {α} (a : α) : SCCount ws e (Pure.pure a) := fun _ _ _ hs => hs

theorem SCCount.all {α} {f : α → SC Unit} (h : ∀ a, SCCount ws e (f a)) (l : List α) : SCCount ws e (scAll f l) := by
  induction l with
  | nil => exact fun _ _ _ hs => hs
  | cons a l ih => exact .bind (h a) fun _ => ih

theorem SCCount.opt {α} {f : α → SC Unit} (h : ∀ a, SCCount ws e (f a)) (x : Option α) : SCCount ws e (scOpt f x) := by
  cases x with
  | none => exact fun _ _ _ hs => hs
  | some a => exact h a

theorem SCCount.writer {α} {m : SW α} (h : SCount ws e m) : SCCount ws e m.c := fun _ _ x hs => h x.f hs

theorem SCCount.reader {α} (m : B α) : SCCount ws e m.sc := fun _ _ _ hs => hs

theorem SCCount.patchTable (w : Nat) (d : Int) (a : AtomBounds) : SCCount ws e (sPatchTable w d a) :=
  .bind (.writer (.arith _)) fun _ => .bind (.reader _) fun _ => .writer (.bind (.seekStart _) fun _ =>
    .bind (.all (fun _ => .bind (.arith _) fun _ => .writeAll _) _) fun _ => .flushBuf)

theorem SCCount.writePhase (mdatPos : Nat) (moov : MoovBounds) (p : Plan) (oldLen : Nat) (moved : Bytes) (atoms : List AtomData) :
    SCCount ws e (sWritePhase mdatPos moov p oldLen moved atoms) := by
  unfold sWritePhase
  have h : SCount ws e (do
    sAll (sPatchHead p.lenDiff) p.updateAtoms.reverse
    let n ← (addI (asI64 oldLen) p.lenDiff).sw
    sSetLen (asU64 n)
    sSeekStart p.newAtomsStart
    sEmit (newAtomsWr p atoms)
    let m ← (addI (asI64 p.movedDataStart) p.lenDiff).sw
    sSeekStart (asU64 m)
    sWriteAll moved
    sFlush : SW Unit) := .bind (.all (.patchHead _) _) fun _ => .bind (.arith _) fun _ => .bind (.setLen _) fun _ =>
    .bind (.seekStart _) fun _ => .bind (.emit _) fun _ => .bind (.arith _) fun _ => .bind (.seekStart _) fun _ =>
    .bind (.writeAll _) fun _ => .flushBuf
  by_cases hm : mdatPos > moov.bounds.pos
  · simp only [if_pos hm]
    exact .bind (.all (fun _ => .bind (.opt (.patchTable 4 _) _) fun _ => .opt (.patchTable 8 _) _) _) fun _ => .writer h
  · simp only [if_neg hm]
    exact .bind (.pure ()) fun _ => .writer h

theorem writeTagShort_counted (c : Sched) (cap : Nat) (ws : Sched) (e : Env) (F : Bytes) (pos : Nat) (atoms : List AtomData) :
    Counted ws (writeTagShort c cap ws e F pos atoms).2.f := by
  unfold writeTagShort sDrop
  exact SCount.flushBuf _ (SCCount.bind (.reader (preparePhaseBuf atoms)) (fun y => SCCount.writePhase y.1 y.2.1 y.2.2.1 y.2.2.2.1 y.2.2.2.2 atoms) c cap
    ⟨{ cur := pos }, { file := F, cur := pos }⟩ rfl)

end
end Mp4
