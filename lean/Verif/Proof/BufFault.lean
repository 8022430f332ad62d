import Verif.Model.BufFault
import Verif.Proof.BufSave
/-
Saving through a `BufReader` with failing calls of reader and writer: what happens is what happens in Model/Fault.lean for some failing
calls there.
-/
namespace Mp4

/-! ### The writer, with its calls numbered differently -/

/-- From states that are related except for the number of calls, with the same calls failing: the same outcome, related states, and the
same number of calls. -/
structure FRel (R : WSt → WSt → Prop) {α} (m : FW α) : Prop where
  le : ∀ fl e s, s.tick ≤ (m fl e s).2.tick
  run : ∀ e (fl fl' : Faults) (s t : FSt), R s.toWSt t.toWSt →
    (∀ i, s.tick + i < (m fl e s).2.tick → fl'.call (t.tick + i) = fl.call (s.tick + i)) →
    (m fl' e t).1 = (m fl e s).1 ∧ R (m fl e s).2.toWSt (m fl' e t).2.toWSt ∧ (m fl' e t).2.tick + s.tick = t.tick + (m fl e s).2.tick

section
variable {R : WSt → WSt → Prop}

theorem FRel.bind {α β} {m : FW α} {f : α → FW β} (h : FRel R m) (hf : ∀ a, FRel R (f a)) : FRel R (m >>= f) := by
  have hle : ∀ fl e s, (m fl e s).2.tick ≤ (FW.bind m f fl e s).2.tick := by
    intro fl e s
    unfold FW.bind
    generalize m fl e s = x
    obtain ⟨o, s1⟩ := x
    cases o with
    | ok a => exact (hf a).le fl e s1
    | err k => exact Nat.le_refl _
    | panic => exact Nat.le_refl _
    | fuel => exact Nat.le_refl _
  refine ⟨fun fl e s => Nat.le_trans (h.le fl e s) (hle fl e s), fun e fl fl' s t hr hc => ?_⟩
  change ∀ i, s.tick + i < (FW.bind m f fl e s).2.tick → _ at hc
  show (FW.bind m f fl' e t).1 = (FW.bind m f fl e s).1 ∧ R (FW.bind m f fl e s).2.toWSt (FW.bind m f fl' e t).2.toWSt ∧
    (FW.bind m f fl' e t).2.tick + s.tick = t.tick + (FW.bind m f fl e s).2.tick
  obtain ⟨h1, h2, h3⟩ := h.run e fl fl' s t hr fun i hi => hc i (Nat.lt_of_lt_of_le hi (hle fl e s))
  have h0 := h.le fl e s
  unfold FW.bind at hc ⊢
  generalize m fl e s = x at *
  generalize m fl' e t = y at *
  obtain ⟨o, s1⟩ := x
  obtain ⟨o', t1⟩ := y
  dsimp only at h0 h1 h2 h3
  subst h1
  cases o' with
  | ok a =>
    dsimp only at hc ⊢
    obtain ⟨h4, h5, h6⟩ := (hf a).run e fl fl' s1 t1 h2 fun i hi => by
      have := hc (s1.tick - s.tick + i) (by omega)
      rwa [show t.tick + (s1.tick - s.tick + i) = t1.tick + i by omega, show s.tick + (s1.tick - s.tick + i) = s1.tick + i by omega] at this
    exact ⟨h4, h5, by omega⟩
  | err k => exact ⟨rfl, h2, h3⟩
  | panic => exact ⟨rfl, h2, h3⟩
  | fuel => exact ⟨rfl, h2, h3⟩

theorem FRel.pure {α} (a : α) : FRel R (Pure.pure a : FW α) := ⟨fun _ _ _ => Nat.le_refl _, fun _ _ _ _ _ hr _ => ⟨rfl, hr, rfl⟩⟩
theorem FRel.arith {α} (m : E α) : FRel R m.fw := ⟨fun _ _ _ => Nat.le_refl _, fun _ _ _ _ _ hr _ => ⟨rfl, hr, rfl⟩⟩

theorem FRel.all {α} {f : α → FW Unit} (h : ∀ a, FRel R (f a)) (l : List α) : FRel R (fAll f l) := by
  induction l with
  | nil => exact FRel.pure ()
  | cons a l ih => exact .bind (h a) fun _ => ih

theorem FRel.ite {α} {q : Prop} [Decidable q] {m m' : FW α} (h : FRel R m) (h' : FRel R m') : FRel R (if q then m else m') := by
  split <;> assumption

end

/-- The states are the same, apart from the number of calls. -/
abbrev FEq {α} (m : FW α) : Prop := FRel (· = ·) m

theorem FEq.sys (b : Bytes) : FEq (fSysWrite b) := by
  refine ⟨fun fl e s => ?_, fun e fl fl' ⟨w, i⟩ ⟨w', j⟩ hr hc => ?_⟩
  · unfold fSysWrite
    split
    · exact Nat.le_refl _
    · split <;> exact Nat.le_succ _
  · change w = w' at hr
    subst hr
    unfold fSysWrite at hc ⊢
    by_cases hb : b.isEmpty
    · rw [if_pos hb, if_pos hb]
      exact ⟨rfl, rfl, rfl⟩
    · rw [if_neg hb] at hc ⊢
      rw [if_neg hb]
      have h0 : fl'.call j = fl.call i := hc 0 (by dsimp only; split <;> exact Nat.lt_succ_self _)
      dsimp only
      rw [h0]
      cases fl.call i with
      | none => exact ⟨rfl, rfl, by dsimp only; omega⟩
      | some n => exact ⟨rfl, rfl, by dsimp only; omega⟩

theorem FEq.flushBuf : FEq fFlushBuf := by
  refine ⟨fun fl e s => ?_, fun e fl fl' ⟨w, i⟩ ⟨w', j⟩ hr hc => ?_⟩
  · unfold fFlushBuf
    split
    · exact Nat.le_refl _
    · split <;> exact Nat.le_succ _
  · change w = w' at hr
    subst hr
    unfold fFlushBuf at hc ⊢
    by_cases hb : w.buf.isEmpty
    · dsimp only
      rw [if_pos hb, if_pos hb]
      exact ⟨rfl, rfl, rfl⟩
    · dsimp only at hc ⊢
      rw [if_neg hb] at hc ⊢
      rw [if_neg hb]
      have h0 : fl'.call j = fl.call i := hc 0 (by split <;> exact Nat.lt_succ_self _)
      rw [h0]
      cases fl.call i with
      | none => exact ⟨rfl, rfl, by dsimp only; omega⟩
      | some n => exact ⟨rfl, rfl, by dsimp only; omega⟩

theorem FEq.direct (b : Bytes) : FEq (fWriteDirect b) := by
  refine ⟨fun fl e s => ?_, fun e fl fl' s t hr hc => ?_⟩
  · unfold fWriteDirect
    split
    · exact (FEq.sys b).le fl e s
    · exact Nat.le_refl _
  · unfold fWriteDirect at hc ⊢
    by_cases hb : b.length ≥ e.cap
    · rw [if_pos hb] at hc ⊢
      rw [if_pos hb]
      exact (FEq.sys b).run e fl fl' s t hr hc
    · rw [if_neg hb, if_neg hb]
      refine ⟨rfl, ?_, rfl⟩
      dsimp only
      rw [hr]

theorem FEq.write (b : Bytes) : FEq (fWriteAll b) := by
  have h2 : FEq (FW.bind fFlushBuf (fun _ => fWriteDirect b)) := FRel.bind FEq.flushBuf fun _ => FEq.direct b
  refine ⟨fun fl e s => ?_, fun e fl fl' s t hr hc => ?_⟩
  · unfold fWriteAll
    split
    · exact Nat.le_refl _
    · split
      · exact h2.le fl e s
      · exact (FEq.direct b).le fl e s
  · have hbuf : t.buf = s.buf := by rw [hr]
    unfold fWriteAll at hc ⊢
    rw [hbuf]
    by_cases hb : b.length < e.cap - s.buf.length
    · rw [if_pos hb, if_pos hb]
      refine ⟨rfl, ?_, rfl⟩
      dsimp only
      rw [hr]
    · rw [if_neg hb] at hc ⊢
      rw [if_neg hb]
      by_cases hb' : b.length > e.cap - s.buf.length
      · rw [if_pos hb'] at hc ⊢
        rw [if_pos hb']
        exact h2.run e fl fl' s t hr hc
      · rw [if_neg hb'] at hc ⊢
        rw [if_neg hb']
        exact (FEq.direct b).run e fl fl' s t hr hc

theorem FEq.seekStart (n : Nat) : FEq (fSeekStart n) := by
  refine FRel.bind FEq.flushBuf fun _ => ⟨fun fl e s => ?_, fun e fl fl' s t hr _ => ?_⟩
  · split <;> exact Nat.le_refl _
  · split
    · exact ⟨rfl, by dsimp only; rw [hr], rfl⟩
    · exact ⟨rfl, hr, rfl⟩

theorem FEq.seekCur (n : Nat) : FEq (fSeekCur n) := by
  refine FRel.bind FEq.flushBuf fun _ => ⟨fun fl e s => ?_, fun e fl fl' s t hr _ => ?_⟩
  · split <;> exact Nat.le_refl _
  · have hcur : t.cur = s.cur := by rw [hr]
    rw [hcur]
    split
    · exact ⟨rfl, by dsimp only; rw [hr], rfl⟩
    · exact ⟨rfl, hr, rfl⟩

theorem fEmit_eq (m : Wr Unit) (fl : Faults) (e : Env) (s : FSt) :
    fEmit m fl e s = (do fAll fWriteAll (m e).1; E.fw (fun _ => (m e).2) : FW Unit) fl e s := by
  show fEmit m fl e s = FW.bind (fAll fWriteAll (m e).1) (fun _ => E.fw (fun _ => (m e).2)) fl e s
  unfold fEmit FW.bind
  generalize fAll fWriteAll (m e).1 fl e s = x
  obtain ⟨o, s'⟩ := x
  cases o <;> rfl

theorem FEq.emit (m : Wr Unit) : FEq (fEmit m) := by
  have h : ∀ e, FEq (do fAll fWriteAll (m e).1; E.fw (fun _ => (m e).2) : FW Unit) := fun e =>
    .bind (.all FEq.write _) fun _ => .arith _
  refine ⟨fun fl e s => ?_, fun e fl fl' s t hr hc => ?_⟩
  · rw [fEmit_eq]
    exact (h e).le fl e s
  · rw [fEmit_eq] at hc ⊢
    rw [fEmit_eq]
    exact (h e).run e fl fl' s t hr hc

/-- Behind a seek the cursors agree. -/
theorem FRel.seek {α} (n : Nat) (f : Unit → FW α) (hf : ∀ a, FEq (f a)) : FRel Twin (fSeekStart n >>= f) := by
  have heq : FEq (fSeekStart n >>= f) := .bind (FEq.seekStart n) hf
  refine ⟨heq.le, fun e fl fl' s t hr hc => ?_⟩
  rcases hr.cur with hcur | hb
  · obtain ⟨h1, h2, h3⟩ := heq.run e fl fl' s t (hr.eq hcur) hc
    exact ⟨h1, by rw [h2]; exact .refl _, h3⟩
  · have hb' : s.buf = [] := hr.buf.trans hb
    have hs : ∀ fl (s : FSt), s.buf = [] → fSeekStart n fl e s = if n ≤ e.maxPos then (.ok (), { s with cur := n }) else (.err .io, s) := by
      intro fl s hs
      show FW.bind fFlushBuf (fun _ => fun _ e s => if n ≤ e.maxPos then (.ok (), { s with cur := n }) else (.err .io, s)) fl e s = _
      have hfl : fFlushBuf fl e s = (.ok (), s) := by
        unfold fFlushBuf
        rw [if_pos (by rw [hs]; rfl)]
      unfold FW.bind
      rw [hfl]
    change ∀ i, s.tick + i < (FW.bind (fSeekStart n) f fl e s).2.tick → _ at hc
    show (FW.bind (fSeekStart n) f fl' e t).1 = (FW.bind (fSeekStart n) f fl e s).1 ∧
      Twin (FW.bind (fSeekStart n) f fl e s).2.toWSt (FW.bind (fSeekStart n) f fl' e t).2.toWSt ∧
      (FW.bind (fSeekStart n) f fl' e t).2.tick + s.tick = t.tick + (FW.bind (fSeekStart n) f fl e s).2.tick
    unfold FW.bind at hc ⊢
    rw [hs fl s hb'] at hc ⊢
    rw [hs fl' t hb]
    by_cases hn : n ≤ e.maxPos
    · rw [if_pos hn] at hc ⊢
      rw [if_pos hn]
      dsimp only at hc ⊢
      obtain ⟨h1, h2, h3⟩ := (hf ()).run e fl fl' { s with cur := n } { t with cur := n } (by
        obtain ⟨a1, a2, a3, -⟩ := hr
        dsimp only
        rw [a1, a2, a3]) hc
      exact ⟨h1, by rw [h2]; exact .refl _, h3⟩
    · rw [if_neg hn, if_neg hn]
      exact ⟨rfl, hr, rfl⟩

theorem FRel.setLen (n : Nat) : FRel Twin (fSetLen n) := by
  refine ⟨fun fl e s => ?_, fun e fl fl' s t hr hc => ?_⟩
  · unfold fSetLen
    split
    · split <;> exact Nat.le_succ _
    · exact Nat.le_refl _
  · unfold fSetLen at hc ⊢
    by_cases hn : n ≤ e.maxPos
    · rw [if_pos hn] at hc ⊢
      rw [if_pos hn]
      have h0 : fl'.call t.tick = fl.call s.tick := hc 0 (by split <;> exact Nat.lt_succ_self _)
      rw [h0]
      cases fl.call s.tick with
      | none => exact ⟨rfl, ⟨by dsimp only; rw [hr.file], hr.buf, by dsimp only; rw [hr.trace], hr.cur⟩, by dsimp only; omega⟩
      | some k => exact ⟨rfl, ⟨hr.file, hr.buf, hr.trace, hr.cur⟩, by dsimp only; omega⟩
    · rw [if_neg hn, if_neg hn]
      exact ⟨rfl, hr, rfl⟩

theorem FRel.patchHead (d : Int) (a : AtomBounds) : FRel Twin (fPatchHead d a) :=
  .bind (.arith _) fun _ => .seek _ _ fun _ => .ite (.bind (FEq.write _) fun _ => .bind (FEq.seekCur _) fun _ => FEq.write _) (FEq.write _)

/-- The writing phase behind the tables. -/
def fFinishPhase (p : Plan) (oldLen : Nat) (moved : Bytes) (atoms : List AtomData) : FW Unit := do
  fAll (fPatchHead p.lenDiff) p.updateAtoms.reverse
  let n ← (addI (asI64 oldLen) p.lenDiff).fw
  fSetLen (asU64 n)
  fSeekStart p.newAtomsStart
  fEmit (newAtomsWr p atoms)
  let m ← (addI (asI64 p.movedDataStart) p.lenDiff).fw
  fSeekStart (asU64 m)
  fWriteAll moved
  fFlush

theorem FRel.finish (p : Plan) (ol : Nat) (b : Bytes) (at' : List AtomData) : FRel Twin (fFinishPhase p ol b at') :=
  .bind (.all (FRel.patchHead _) _) fun _ => .bind (.arith _) fun _ => .bind (.setLen _) fun _ => .seek _ _ fun _ =>
    .bind (FEq.emit _) fun _ => .bind (.arith _) fun _ => .bind (FEq.seekStart _) fun _ => .bind (FEq.write _) fun _ => FEq.flushBuf

/-- Writing the new entries of a table. -/
def fFillTable (width : Nat) (diff : Int) (tablePos : Nat) (offsets : List Nat) : FW Unit := do
  fSeekStart tablePos
  fAll (fun co => do
    let n ← (addI (asI64 co) diff).fw
    fWriteAll (toBe width (asU64 n))) offsets
  fFlush

theorem FRel.fill (w : Nat) (d : Int) (tp : Nat) (l : List Nat) : FRel Twin (fFillTable w d tp l) :=
  .seek _ _ fun _ => .bind (.all (fun _ => .bind (.arith _) fun _ => FEq.write _) _) fun _ => FEq.flushBuf

theorem FRel.drop : FRel Twin fFlushBuf := by
  refine ⟨FEq.flushBuf.le, fun e fl fl' s t hr hc => ?_⟩
  rcases hr.cur with hcur | hb
  · obtain ⟨h1, h2, h3⟩ := FEq.flushBuf.run e fl fl' s t (hr.eq hcur) hc
    exact ⟨h1, by rw [h2]; exact .refl _, h3⟩
  · have hb' : s.buf = [] := hr.buf.trans hb
    unfold fFlushBuf
    rw [hb, hb']
    exact ⟨rfl, hr, rfl⟩

/-! ### Reader and writer -/

theorem FSim.fill (w : Nat) (d : Int) (tp : Nat) (l : List Nat) : FSim (fFillTable w d tp l) (fillTable w d tp l) :=
  .bind (FSim.seekStart _) fun _ => .bind (FSim.all (fun _ => .bind (.E _) fun _ => FSim.writeAll _) _) fun _ => FSim.flush

theorem FEq.fill (w : Nat) (d : Int) (tp : Nat) (l : List Nat) : FEq (fFillTable w d tp l) :=
  .bind (FEq.seekStart _) fun _ => .bind (.all (fun _ => .bind (.arith _) fun _ => FEq.write _) _) fun _ => FEq.flushBuf

/-- If the writer succeeds, no call has failed. -/
theorem fw_ok {α} {m : FW α} {w : W α} (h : FEq m) (hs : FSim m w) (fl : Faults) (e : Env) (s : FSt) (a : α) (hok : (m fl e s).1 = .ok a) :
    w e s.toWSt = (.ok a, (m fl e s).2.toWSt) := by
  obtain ⟨h1, h2, -⟩ := h.run e fl ⟨fun i => fl.call (s.tick + i), false⟩ s { s with tick := 0 } rfl (fun i _ => by rw [Nat.zero_add])
  rcases hs ⟨fun i => fl.call (s.tick + i), false⟩ e { s with tick := 0 } (fun k hk => absurd hk (Nat.not_lt_zero k)) with ⟨-, h3, h4⟩ | ⟨-, h3⟩
  · rw [h1, hok] at h3
    rw [← h2] at h4
    exact Prod.ext h3.symm h4.symm
  · rw [h1, hok] at h3
    cases h3

/-- The calls from a number on are the given ones. -/
def Faults.plays (fl : Faults) (t : Nat) (cs : List (Option Nat)) : Prop := ∀ i (h : i < cs.length), fl.call (t + i) = cs[i]

theorem Faults.plays_left {fl : Faults} {t : Nat} {a b : List (Option Nat)} (h : fl.plays t (a ++ b)) : fl.plays t a := by
  intro i hi
  have := h i (by rw [List.length_append]; omega)
  rwa [List.getElem_append_left hi] at this

theorem Faults.plays_right {fl : Faults} {t : Nat} {a b : List (Option Nat)} (h : fl.plays t (a ++ b)) : fl.plays (t + a.length) b := by
  intro i hi
  have := h (a.length + i) (by rw [List.length_append]; omega)
  rw [List.getElem_append_right (by omega)] at this
  rw [Nat.add_assoc, this]
  simp

/-- What is to blame for a failing call: a call of the writer or the reader, or that there were not enough iterations. -/
def Blame (c : Sched) (fl : Faults) (e : Env) (G : Bytes) (r : Out Unit × FCSt) (n : Nat) : Prop :=
  (∃ j, fl.call j = some n) ∨ r.2.b.hit = true ∨ (r.1 = .fuel ∧ ¬ Spec.Enough c e G)

/-- What is known of the calls `cs` of the one writer in terms of reader and writer: the calls of the writer are among them, and those that
fail have a reason. -/
structure Told (c : Sched) (fl : Faults) (e : Env) (G : Bytes) (x : FCSt) (r : Out Unit × FCSt) (cs : List (Option Nat)) : Prop where
  ticked : Ticked c x.b r.2.b
  hit : r.2.b.hit = true → r.1 = .err .io
  calls : ∀ k, x.f.tick ≤ k → k < r.2.f.tick → fl.call k ∈ cs
  blame : ∀ n, some n ∈ cs → Blame c fl e G r n

/-- The same outcome, or there were not enough iterations, in which case it is as if the reader had failed. -/
def Match (c : Sched) (e : Env) (G : Bytes) (o o' : Out Unit) : Prop := o' = o ∨ (o = .fuel ∧ ¬ Spec.Enough c e G ∧ o' = .err .io)

/-- What reader and writer do is what the writer of Model/Fault.lean does for some failing calls. -/
def FCEnd (c : Sched) (cap : Nat) (fl : Faults) (e : Env) (G : Bytes) (m : FC Unit) (w : FW Unit) : Prop :=
  ∀ x, Idle G.length x.f.toWSt → x.b.hit = false →
    ∃ cs : List (Option Nat), Told c fl e G x (m c cap fl e x) cs ∧
      ∀ fl' (t : FSt), Twin x.f.toWSt t.toWSt → fl'.plays t.tick cs →
        Twin (m c cap fl e x).2.f.toWSt (w fl' e t).2.toWSt ∧ (w fl' e t).2.tick = t.tick + cs.length ∧
        Match c e G (m c cap fl e x).1 (w fl' e t).1

/-- On success it ends as it began. -/
def FCStay (c : Sched) (cap : Nat) (fl : Faults) (e : Env) (G : Bytes) (m : FC Unit) : Prop :=
  ∀ x, Idle G.length x.f.toWSt → x.b.hit = false → (m c cap fl e x).1 = .ok () →
    (m c cap fl e x).2.b.hit = false ∧ Idle G.length (m c cap fl e x).2.f.toWSt

/-- `FCEnd` for what others follow on. -/
def FCSim (c : Sched) (cap : Nat) (fl : Faults) (e : Env) (G : Bytes) (m : FC Unit) (w : FW Unit) : Prop :=
  FCStay c cap fl e G m ∧ FCEnd c cap fl e G m w

section
variable {c : Sched} {cap : Nat} {fl : Faults} {e : Env} {G : Bytes}

theorem FCSim.end_bind {m m' : FC Unit} {w w' : FW Unit} (h : FCSim c cap fl e G m w) (h' : FCEnd c cap fl e G m' w') :
    FCEnd c cap fl e G (do m; m') (do w; w') := by
  intro x hi hh
  have h1 := h.1 x hi hh
  obtain ⟨cs, h2, h3⟩ := h.2 x hi hh
  show ∃ cs : List (Option Nat), Told c fl e G x (FC.bind m (fun _ => m') c cap fl e x) cs ∧
      ∀ fl' (t : FSt), Twin x.f.toWSt t.toWSt → fl'.plays t.tick cs →
        Twin (FC.bind m (fun _ => m') c cap fl e x).2.f.toWSt (FW.bind w (fun _ => w') fl' e t).2.toWSt ∧
        (FW.bind w (fun _ => w') fl' e t).2.tick = t.tick + cs.length ∧
        Match c e G (FC.bind m (fun _ => m') c cap fl e x).1 (FW.bind w (fun _ => w') fl' e t).1
  unfold FC.bind
  generalize m c cap fl e x = r at *
  obtain ⟨o, x1⟩ := r
  dsimp only at h1 h2 h3
  have stop : (∀ a, o ≠ .ok a) → ∃ cs : List (Option Nat), Told c fl e G x (o, x1) cs ∧
      ∀ fl' (t : FSt), Twin x.f.toWSt t.toWSt → fl'.plays t.tick cs →
        Twin x1.f.toWSt (FW.bind w (fun _ => w') fl' e t).2.toWSt ∧
        (FW.bind w (fun _ => w') fl' e t).2.tick = t.tick + cs.length ∧
        Match c e G o (FW.bind w (fun _ => w') fl' e t).1 := by
    intro hne
    refine ⟨cs, h2, fun fl' t ht hp => ?_⟩
    have h4 := h3 fl' t ht hp
    unfold FW.bind
    generalize w fl' e t = y at *
    obtain ⟨p, t1⟩ := y
    dsimp only at h4
    cases p with
    | ok a =>
      rcases h4.2.2 with h5 | ⟨-, -, h5⟩
      · exact absurd h5.symm (hne a)
      · cases h5
    | err k => exact h4
    | panic => exact h4
    | fuel => exact h4
  cases o with
  | ok a =>
    obtain ⟨hh1, hi1⟩ := h1 rfl
    obtain ⟨cs', h5, h6⟩ := h' x1 hi1 hh1
    refine ⟨cs ++ cs', ⟨h2.ticked.trans hh1 h5.ticked, h5.hit, fun k hk hk' => ?_, fun n hn => ?_⟩, fun fl' t ht hp => ?_⟩
    · by_cases hk1 : k < x1.f.tick
      · exact List.mem_append_left _ (h2.calls k hk hk1)
      · exact List.mem_append_right _ (h5.calls k (by omega) hk')
    · rcases List.mem_append.mp hn with hn | hn
      · rcases h2.blame n hn with hb | hb | ⟨hb, -⟩
        · exact .inl hb
        · rw [show x1.b.hit = false from hh1] at hb; cases hb
        · cases hb
      · exact h5.blame n hn
    · obtain ⟨h7, h8, h9⟩ := h3 fl' t ht (Faults.plays_left hp)
      unfold FW.bind
      generalize w fl' e t = y at *
      obtain ⟨p, t1⟩ := y
      dsimp only at h7 h8 h9
      rcases h9 with h9 | ⟨h9, -⟩
      · subst h9
        obtain ⟨h10, h11, h12⟩ := h6 fl' t1 h7 (by rw [h8]; exact Faults.plays_right hp)
        exact ⟨h10, by dsimp only; rw [h11, h8, List.length_append, Nat.add_assoc], h12⟩
      · cases h9
  | err k => exact stop nofun
  | panic => exact stop nofun
  | fuel => exact stop nofun

theorem FCSim.bind {m m' : FC Unit} {w w' : FW Unit} (h : FCSim c cap fl e G m w) (h' : FCSim c cap fl e G m' w') :
    FCSim c cap fl e G (do m; m') (do w; w') := by
  refine ⟨fun x hi hh => ?_, h.end_bind h'.2⟩
  have h1 := h.1 x hi hh
  show (FC.bind m (fun _ => m') c cap fl e x).1 = .ok () → (FC.bind m (fun _ => m') c cap fl e x).2.b.hit = false ∧
      Idle G.length (FC.bind m (fun _ => m') c cap fl e x).2.f.toWSt
  unfold FC.bind
  generalize m c cap fl e x = r at *
  obtain ⟨o, x1⟩ := r
  dsimp only at h1
  cases o with
  | ok a => exact h'.1 x1 (h1 rfl).2 (h1 rfl).1
  | err k => exact nofun
  | panic => exact nofun
  | fuel => exact nofun

theorem FCSim.pure : FCSim c cap fl e G (Pure.pure ()) (Pure.pure ()) :=
  ⟨fun _ hi hh _ => ⟨hh, hi⟩, fun _ _ hh => ⟨[], ⟨.refl hh, fun h => absurd (hh.symm.trans h) nofun, fun _ h h' => absurd h (Nat.not_le_of_lt h'), nofun⟩, fun _ _ ht _ => ⟨ht, rfl, .inl rfl⟩⟩⟩

theorem FCSim.all {α} {f : α → FC Unit} {g : α → FW Unit} (h : ∀ a, FCSim c cap fl e G (f a) (g a)) (l : List α) :
    FCSim c cap fl e G (fcAll f l) (fAll g l) := by
  induction l with
  | nil => exact .pure
  | cons a l ih => exact .bind (h a) ih

theorem FCSim.opt {α} {f : α → FC Unit} {g : α → FW Unit} (h : ∀ a, FCSim c cap fl e G (f a) (g a)) (x : Option α) :
    FCSim c cap fl e G (fcOpt f x) (fOpt g x) := by
  cases x with
  | none => exact .pure
  | some a => exact h a

/-- The next calls of the writer. -/
def Faults.next (fl : Faults) (s d : Nat) : List (Option Nat) := (List.range d).map fun i => fl.call (s + i)

theorem Faults.next_length (fl : Faults) (s d : Nat) : (fl.next s d).length = d := by simp [Faults.next]

theorem Faults.next_blame {fl : Faults} {s d n : Nat} (h : some n ∈ fl.next s d) : ∃ j, fl.call j = some n := by
  obtain ⟨i, -, hi⟩ := List.mem_map.mp h
  exact ⟨_, hi⟩

theorem Faults.next_mem {fl : Faults} {s d k : Nat} (h : s ≤ k) (h' : k < s + d) : fl.call k ∈ fl.next s d :=
  List.mem_map.mpr ⟨k - s, List.mem_range.mpr (by omega), by rw [Nat.add_sub_cancel' h]⟩

/-- The writer alone. -/
theorem FRel.next {α} {R : WSt → WSt → Prop} {m : FW α} (h : FRel R m) (fl' : Faults) (s t : FSt) (hr : R s.toWSt t.toWSt)
    (hp : fl'.plays t.tick (fl.next s.tick ((m fl e s).2.tick - s.tick))) :
    (m fl' e t).1 = (m fl e s).1 ∧ R (m fl e s).2.toWSt (m fl' e t).2.toWSt ∧
    (m fl' e t).2.tick = t.tick + ((m fl e s).2.tick - s.tick) := by
  have hle := h.le fl e s
  obtain ⟨h1, h2, h3⟩ := h.run e fl fl' s t hr fun i hi => by
    have := hp i (by rw [Faults.next_length]; omega)
    rw [this]
    simp [Faults.next]
  exact ⟨h1, h2, by omega⟩

theorem FCSim.of {m : FC Unit} {w : FW Unit} (h : ∀ x, Idle G.length x.f.toWSt → x.b.hit = false →
    ((m c cap fl e x).1 = .ok () → (m c cap fl e x).2.b.hit = false ∧ Idle G.length (m c cap fl e x).2.f.toWSt) ∧
    ∃ cs : List (Option Nat), Told c fl e G x (m c cap fl e x) cs ∧
      ∀ fl' (t : FSt), Twin x.f.toWSt t.toWSt → fl'.plays t.tick cs →
        Twin (m c cap fl e x).2.f.toWSt (w fl' e t).2.toWSt ∧ (w fl' e t).2.tick = t.tick + cs.length ∧
        Match c e G (m c cap fl e x).1 (w fl' e t).1) : FCSim c cap fl e G m w :=
  ⟨fun x hi hh => (h x hi hh).1, fun x hi hh => (h x hi hh).2⟩

theorem FCSim.patchTable (hx : Fits e G) {w : Nat} (hw : 0 < w) (d : Int) (a : AtomBounds) :
    FCSim c cap fl e G (fPatchTableBuf w d a) (fPatchTable w d a) := by
  refine .of fun x hi hh => ?_
  have hL : fPatchTableBuf w d a c cap fl e x = FC.bind a.contentPos.fw.c (fun pos => FC.bind
      (do seekStartBuf pos; parseTableBuf w a.size : B (Nat × List Nat)).fc (fun y => (fFillTable w d y.1 y.2).c)) c cap fl e x := rfl
  have hR : ∀ fl' t, fPatchTable w d a fl' e t = FW.bind a.contentPos.fw (fun pos => FW.bind (fRead pos (parseTable w a.size))
      (fun y => fFillTable w d y.1 y.2)) fl' e t := fun _ _ => rfl
  unfold FC.bind FW.c B.fc Mp4.E.fw at hL
  unfold FW.bind Mp4.E.fw at hR
  dsimp only at hL hR
  cases hp : a.contentPos e with
  | ok pos =>
    rw [hp] at hL hR
    dsimp only at hL hR
    have hfit : Fits e x.f.file := ⟨by rw [hi.1]; exact hx.file, hx.pos, hx.fuel⟩
    generalize hy : (do seekStartBuf pos; parseTableBuf w a.size : B (Nat × List Nat)) c cap e x.f.file { x.b with cur := x.f.cur } = y at hL
    obtain ⟨h1, hT⟩ := tableBuf_same c cap e x.f.file { x.b with cur := x.f.cur } pos w a.size hfit hh y hy
    obtain ⟨o, b1⟩ := y
    dsimp only at h1 hL
    have hT' : Ticked c x.b b1 := ⟨hT.le, hT.none, hT.good⟩
    clear hT
    rcases h1 with ⟨h0, h1⟩ | h1
    · generalize hq : (do seekStart pos; parseTable w a.size : P (Nat × List Nat)) e x.f.file 0 = q at h1
      rcases q with ⟨⟨tp, l⟩, q⟩ | k | _ | _ <;> dsimp only at h1 <;> subst h1 <;> dsimp only at hL
      · rw [hL]
        refine ⟨fun hok => ⟨h0, ?_⟩, none :: fl.next x.f.tick ((fFillTable w d tp l fl e { x.f with cur := b1.cur }).2.tick - x.f.tick),
          ⟨hT', fun h => absurd (h0.symm.trans h) nofun, fun k hk hk' => List.mem_cons_of_mem _ (Faults.next_mem hk ?_), fun n hn => ?_⟩, fun fl' t ht hpl => ?_⟩
        · refine fillTable_idle (n := G.length) (w := w) (d := d) (tp := tp) (l := l) (e := e) (s := ({ x.f with cur := b1.cur } : FSt).toWSt) ?_ ⟨hi.1, hi.2⟩
            (fw_ok (FEq.fill w d tp l) (FSim.fill w d tp l) fl e { x.f with cur := b1.cur } () hok)
          obtain ⟨_, r, -, h5⟩ := P.bind_inv hq
          have := parseTable_fits hw h5
          rwa [hi.1] at this
        · change k < (fFillTable w d tp l fl e { x.f with cur := b1.cur }).2.tick at hk'
          omega
        · rcases List.mem_cons.mp hn with hn | hn
          · cases hn
          · exact .inl (Faults.next_blame hn)
        · have h2 : fl'.call t.tick = none := hpl 0 (Nat.zero_lt_succ _)
          have h3 : fRead pos (parseTable w a.size) fl' e t = (.ok (tp, l), { t with cur := e.rcur t.trace.length, tick := t.tick + 1 }) := by
            unfold fRead
            rw [h2, ← show x.f.file = t.file from ht.file, hq]
          rw [hR, h3]
          dsimp only
          obtain ⟨h4, h5, h6⟩ := (FRel.fill w d tp l).next (e := e) (fl := fl) fl' { x.f with cur := b1.cur }
            { t with cur := e.rcur t.trace.length, tick := t.tick + 1 } ⟨ht.file, ht.buf, ht.trace, .inr (ht.buf.symm.trans hi.2)⟩
            (Faults.plays_right (a := [none]) hpl)
          refine ⟨h5, ?_, .inl h4⟩
          rw [h6, List.length_cons, Faults.next_length]
          dsimp only
          omega
      all_goals
        rw [hL]
        refine ⟨fun h => (by cases h), [none], ⟨hT', fun h => absurd (h0.symm.trans h) nofun, fun _ hk hk' => (by dsimp only at hk'; omega),
          fun n hn => (by rw [List.mem_singleton] at hn; cases hn)⟩, fun fl' t ht hpl => ?_⟩
        have h2 : fl'.call t.tick = none := hpl 0 (Nat.zero_lt_succ _)
        rw [hR]
        unfold fRead
        rw [h2, ← show x.f.file = t.file from ht.file, hq]
        exact ⟨⟨rfl, ht.buf, ht.trace, .inr (ht.buf.symm.trans hi.2)⟩, rfl, .inl rfl⟩
    · have hcut : fPatchTableBuf w d a c cap fl e x = (if b1.hit then .err .io else .fuel, ⟨b1, { x.f with cur := b1.cur }⟩) := by
        rcases h1 with ⟨h6, h7⟩ | ⟨h6, h7, -⟩ <;> rw [hL, h7, h6] <;> rfl
      have hne : ¬ b1.hit = true → ¬ Spec.Enough c e G := by
        intro hf
        rcases h1 with ⟨h6, -⟩ | ⟨-, -, h8⟩
        · exact absurd h6 hf
        · exact fun h => h8 (enough_length (by rw [hi.1]) h)
      rw [hcut]
      refine ⟨fun h => ?_, [some 0], ⟨hT', fun hb => if_pos hb, fun _ hk hk' => (by dsimp only at hk'; omega), fun n hn => ?_⟩, fun fl' t ht hpl => ?_⟩
      · dsimp only at h
        split at h <;> cases h
      · refine .inr ?_
        dsimp only
        by_cases hb : b1.hit = true
        · exact .inl hb
        · exact .inr ⟨if_neg hb, hne hb⟩
      · have h2 : fl'.call t.tick = some 0 := hpl 0 (Nat.zero_lt_succ _)
        rw [hR]
        unfold fRead
        rw [h2]
        refine ⟨⟨ht.file, ht.buf, ht.trace, .inr (ht.buf.symm.trans hi.2)⟩, rfl, ?_⟩
        dsimp only
        by_cases hb : b1.hit = true
        · rw [if_pos hb]
          exact .inl rfl
        · rw [if_neg hb]
          exact .inr ⟨rfl, hne hb, rfl⟩
  | err k =>
    rw [hp] at hL hR
    rw [hL]
    exact ⟨fun h => (by cases h), [], ⟨.refl hh, fun h => absurd (hh.symm.trans h) nofun, fun _ hk hk' => (by dsimp only at hk'; omega), nofun⟩, fun fl' t ht _ => by rw [hR]; exact ⟨ht, rfl, .inl rfl⟩⟩
  | panic =>
    rw [hp] at hL hR
    rw [hL]
    exact ⟨fun h => (by cases h), [], ⟨.refl hh, fun h => absurd (hh.symm.trans h) nofun, fun _ hk hk' => (by dsimp only at hk'; omega), nofun⟩, fun fl' t ht _ => by rw [hR]; exact ⟨ht, rfl, .inl rfl⟩⟩
  | fuel =>
    rw [hp] at hL hR
    rw [hL]
    exact ⟨fun h => (by cases h), [], ⟨.refl hh, fun h => absurd (hh.symm.trans h) nofun, fun _ hk hk' => (by dsimp only at hk'; omega), nofun⟩, fun fl' t ht _ => by rw [hR]; exact ⟨ht, rfl, .inl rfl⟩⟩

theorem FCSim.patchStbl (hx : Fits e G) (d : Int) (a : StblBounds) : FCSim c cap fl e G (fPatchStblBuf d a) (fPatchStbl d a) :=
  .bind (.opt (FCSim.patchTable hx (by decide) d) _) (.opt (FCSim.patchTable hx (by decide) d) _)

/-- The writing phase. -/
theorem FCEnd.writer {m : FW Unit} (h : FRel Twin m) : FCEnd c cap fl e G m.c m := by
  intro x _ hh
  refine ⟨fl.next x.f.tick ((m fl e x.f).2.tick - x.f.tick), ⟨.refl hh, fun h => absurd (hh.symm.trans h) nofun,
    fun k hk hk' => Faults.next_mem hk (by change k < (m fl e x.f).2.tick at hk'; omega), fun n hn => .inl (Faults.next_blame hn)⟩, fun fl' t ht hp => ?_⟩
  obtain ⟨h1, h2, h3⟩ := h.next fl' x.f t ht hp
  exact ⟨h2, by rw [h3, Faults.next_length], .inl h1⟩

theorem FCEnd.writePhase (hx : Fits e G) (mp : Nat) (moov : MoovBounds) (p : Plan) (ol : Nat) (moved : Bytes) (at' : List AtomData) :
    FCEnd c cap fl e G (fWritePhaseBuf mp moov p ol moved at') (fWritePhase mp moov p ol moved at') := by
  unfold fWritePhaseBuf fWritePhase
  split
  · exact FCSim.end_bind (.all (FCSim.patchStbl hx _) _) (FCEnd.writer (FRel.finish p ol moved at'))
  · exact FCSim.end_bind .pure (FCEnd.writer (FRel.finish p ol moved at'))

theorem plays_getD (cs : List (Option Nat)) (b : Bool) : (⟨fun k => cs.getD k none, b⟩ : Faults).plays 0 cs := by
  intro i hi
  simp [List.getD_eq_getElem?_getD, hi]

/-- The whole save. -/
theorem writeTagFBuf_run (hx : Fits e G) {pos : Nat} (hp : pos < 2^63) (at' : List AtomData) (r : Out Unit × FCSt)
    (hr : writeTagFBuf c cap fl e G pos at' = r) :
    ∃ fl' : Faults, (writeTagF fl' e G pos at').2.file = r.2.f.file ∧ (writeTagF fl' e G pos at').2.trace = r.2.f.trace ∧
      Match c e G r.1 (writeTagF fl' e G pos at').1 ∧
      (∀ k n, fl'.call k = some n → Blame c fl e G r n) ∧
      (∀ k < r.2.f.tick, ∃ j < (writeTagF fl' e G pos at').2.tick, fl'.call j = fl.call k) ∧
      Ticked c { cur := pos } r.2.b ∧ (r.2.b.hit = true → r.1 = .err .io) ∧
      (fl'.search = true → r.2.f.trace = [] ∧ (r.2.b.hit = true ∨ (r.1 = .fuel ∧ ¬ Spec.Enough c e G))) := by
  have hr' : ((FC.bind (preparePhaseBuf at').fc (fun y => fWritePhaseBuf y.1 y.2.1 y.2.2.1 y.2.2.2.1 y.2.2.2.2 at') c cap fl e
        ⟨{ cur := pos }, { file := G, cur := pos }⟩).1,
      (⟨(FC.bind (preparePhaseBuf at').fc (fun y => fWritePhaseBuf y.1 y.2.1 y.2.2.1 y.2.2.2.1 y.2.2.2.2 at') c cap fl e
        ⟨{ cur := pos }, { file := G, cur := pos }⟩).2.b,
        fDrop fl e (FC.bind (preparePhaseBuf at').fc (fun y => fWritePhaseBuf y.1 y.2.1 y.2.2.1 y.2.2.2.1 y.2.2.2.2 at') c cap fl e
        ⟨{ cur := pos }, { file := G, cur := pos }⟩).2.f⟩ : FCSt)) = r := hr
  clear hr
  have hok : BSt.Ok G { cur := pos } := BStep.ok_nil rfl hp
  obtain ⟨h1, h2, h3⟩ := (BSim.preparePhase (c := c) (cap := cap) at').same hx (fun _ => RSim.preparePhase at') { cur := pos } hok rfl
  obtain ⟨_, _, -, h4, -⟩ := (BSim.preparePhase (c := c) (cap := cap) at').reader hx _ hok
  have hT : Ticked c { cur := pos } (preparePhaseBuf at' c cap e G { cur := pos }).2 := ⟨h4, h2, h3⟩
  unfold FC.bind B.fc at hr'
  dsimp only at hr'
  change (_ ∧ AgreeBuf _ (preparePhase at' e G pos)) ∨ _ at h1
  unfold writeTagF
  generalize preparePhaseBuf at' c cap e G { cur := pos } = y at *
  clear h2 h3 h4
  obtain ⟨o, b1⟩ := y
  dsimp only at h1 hT hr'
  have hnil : ∀ cur, fDrop fl e { file := G, cur := cur } = { file := G, cur := cur } := fun _ => rfl
  rcases h1 with ⟨h0, h1⟩ | h1
  · generalize preparePhase at' e G pos = q at h1 ⊢
    rcases q with ⟨⟨mp, mv, p, ol, b⟩, q⟩ | k | _ | _
    · have := h1.1
      dsimp only at this
      subst this
      dsimp only at hr'
      obtain ⟨cs, h5, h6⟩ := FCEnd.writePhase (c := c) (cap := cap) (fl := fl) hx mp mv p ol b at' ⟨b1, { file := G, cur := b1.cur }⟩ ⟨rfl, rfl⟩ h0
      generalize fWritePhaseBuf mp mv p ol b at' c cap fl e ⟨b1, { file := G, cur := b1.cur }⟩ = z at *
      obtain ⟨cs', hcs⟩ : ∃ cs', cs' = fl.next z.2.f.tick ((fFlushBuf fl e z.2.f).2.tick - z.2.f.tick) := ⟨_, rfl⟩
      refine ⟨⟨fun k => (cs ++ cs').getD k none, false⟩, ?_⟩
      have hpl := plays_getD (cs ++ cs') false
      have hmem : ∀ k n, (⟨fun k => (cs ++ cs').getD k none, false⟩ : Faults).call k = some n → some n ∈ cs ++ cs' := by
        intro k n hk
        change (cs ++ cs').getD k none = some n at hk
        rw [List.getD_eq_getElem?_getD] at hk
        cases hg : (cs ++ cs')[k]? with
        | none => rw [hg] at hk; cases hk
        | some v =>
          rw [hg] at hk
          change v = some n at hk
          exact hk ▸ List.mem_of_getElem? hg
      generalize hF : (⟨fun k => (cs ++ cs').getD k none, false⟩ : Faults) = fl' at *
      have hs : fl'.search = false := by rw [← hF]
      rw [hs]
      simp only [Bool.false_eq_true, ↓reduceIte]
      obtain ⟨h7, h8, h9⟩ := h6 fl' { file := G, cur := e.rcur 0 } ⟨rfl, rfl, rfl, .inr rfl⟩ (Faults.plays_left hpl)
      generalize fWritePhase mp mv p ol b at' fl' e { file := G, cur := e.rcur 0 } = z' at *
      obtain ⟨h10, h11, h12⟩ := FRel.drop.next (e := e) (fl := fl) fl' z.2.f z'.2 h7 (by rw [h8, ← hcs]; exact Faults.plays_right hpl)
      subst hr'
      refine ⟨h11.file.symm, h11.trace.symm, h9, fun k n hk => ?_, fun k hk => ?_, hT.trans h0 h5.ticked, h5.hit, nofun⟩
      · rcases List.mem_append.mp (hmem k n hk) with hn | hn
        · exact h5.blame n hn
        · exact .inl (Faults.next_blame (hcs ▸ hn))
      · have h13 : fl.call k ∈ cs ++ cs' := by
          by_cases hk1 : k < z.2.f.tick
          · exact List.mem_append_left _ (h5.calls k (Nat.zero_le _) hk1)
          · rw [hcs]
            exact List.mem_append_right _ (Faults.next_mem (by omega) (by change k < (fFlushBuf fl e z.2.f).2.tick at hk; omega))
        obtain ⟨j, hj, hj'⟩ := List.mem_iff_getElem.mp h13
        refine ⟨j, ?_, ?_⟩
        · change j < (fFlushBuf fl' e z'.2).2.tick
          rw [h12, h8]
          rw [List.length_append, hcs, Faults.next_length] at hj
          change j < 0 + cs.length + _
          omega
        · have := hpl j hj
          rw [Nat.zero_add] at this
          rw [this, hj']
    all_goals
      have : o = _ := h1
      subst this
      subst hr'
      exact ⟨⟨fun _ => none, false⟩, rfl, rfl, .inl rfl, nofun, (fun _ h => absurd h (Nat.not_lt_zero _)), hT, fun h => absurd (h0.symm.trans h) nofun, nofun⟩
  · refine ⟨⟨fun _ => none, true⟩, ?_⟩
    rcases h1 with ⟨h6, h7⟩ | ⟨h6, h7, h8⟩ <;> subst h7 <;> subst hr'
    · exact ⟨rfl, rfl, .inl rfl, nofun, (fun _ h => absurd h (Nat.not_lt_zero _)), hT, fun _ => rfl, fun _ => ⟨rfl, .inl h6⟩⟩
    · exact ⟨rfl, rfl, .inr ⟨rfl, h8, rfl⟩, nofun, (fun _ h => absurd h (Nat.not_lt_zero _)), hT, fun h => absurd (h6.symm.trans h) nofun, fun _ => ⟨rfl, .inr ⟨rfl, h8⟩⟩⟩

end

end Mp4
