import Verif.Model.BufSave
import Verif.Proof.Buffered
import Verif.Proof.Narrow
import Verif.Proof.Fault
/-
Saving through one `BufReader` and one `BufWriter`: where the `BufReader` leaves the cursor does not matter.
-/
namespace Mp4

/-! ### States that differ only in a cursor that is not used -/

/-- The same, except for the cursor if nothing is in the buffer. -/
structure Twin (s t : WSt) : Prop where
  file : s.file = t.file
  buf : s.buf = t.buf
  trace : s.trace = t.trace
  cur : s.cur = t.cur ∨ t.buf = []

theorem Twin.refl (s : WSt) : Twin s s := ⟨rfl, rfl, rfl, .inl rfl⟩

theorem Twin.eq {s t : WSt} (h : Twin s t) (hc : s.cur = t.cur) : s = t := by
  obtain ⟨h1, h2, h3, -⟩ := h
  cases s; cases t
  simp_all

theorem Twin.flush {s t : WSt} (h : Twin s t) : Twin s.flushBuf t.flushBuf := by
  rcases h.cur with hc | hc
  · rw [h.eq hc]
    exact .refl _
  · rw [flushBuf_nil hc, flushBuf_nil (h.buf.trans hc)]
    exact h

/-- From states that differ at most in the cursor: the same outcome, and such states again. -/
def Alike {α} (e : Env) (m : W α) : Prop := ∀ s t, Twin s t → (m e s).1 = (m e t).1 ∧ Twin (m e s).2 (m e t).2

theorem Alike.arith {α} {e : Env} (m : E α) : Alike e m.w := fun _ _ h => ⟨rfl, h⟩

theorem Alike.setLen {e : Env} (n : Nat) : Alike e (wSetLen n) := by
  intro s t h
  unfold wSetLen
  split
  · exact ⟨rfl, by rw [h.file], h.buf, by rw [h.trace], h.cur⟩
  · exact ⟨rfl, h⟩

theorem Alike.bind {α β} {e : Env} {m : W α} {f : α → W β} (hm : Alike e m) (hf : ∀ a, Alike e (f a)) : Alike e (m >>= f) := by
  intro s t h
  obtain ⟨h1, h2⟩ := hm s t h
  show (W.bind m f e s).1 = (W.bind m f e t).1 ∧ Twin (W.bind m f e s).2 (W.bind m f e t).2
  unfold W.bind
  generalize m e s = x at *
  generalize m e t = y at *
  obtain ⟨o, s'⟩ := x
  obtain ⟨o', t'⟩ := y
  cases h1
  cases o with
  | ok a => exact hf a _ _ h2
  | err k => exact ⟨rfl, h2⟩
  | panic => exact ⟨rfl, h2⟩
  | fuel => exact ⟨rfl, h2⟩

/-- Behind a seek the cursors agree. -/
theorem Alike.seek {α} {e : Env} (n : Nat) (f : Unit → W α) : Alike e (wSeekStart n >>= f) := by
  intro s t h
  show (W.bind (wSeekStart n) f e s).1 = (W.bind (wSeekStart n) f e t).1 ∧
    Twin (W.bind (wSeekStart n) f e s).2 (W.bind (wSeekStart n) f e t).2
  have hf := h.flush
  unfold W.bind wSeekStart
  dsimp only
  by_cases hn : n ≤ e.maxPos
  · rw [if_pos hn, if_pos hn]
    have : ({ s.flushBuf with cur := n } : WSt) = { t.flushBuf with cur := n } := by
      have h1 := hf.file
      have h2 := hf.buf
      have h3 := hf.trace
      generalize s.flushBuf = a at *
      generalize t.flushBuf = b at *
      cases a; cases b
      simp_all
    rw [this]
    exact ⟨rfl, .refl _⟩
  · rw [if_neg hn, if_neg hn]
    exact ⟨rfl, hf⟩

theorem Alike.all {α} {e : Env} {f : α → W Unit} (h : ∀ a, Alike e (f a)) (l : List α) : Alike e (wAll f l) := by
  induction l with
  | nil => exact fun _ _ hs => ⟨rfl, hs⟩
  | cons a l ih => exact Alike.bind (h a) fun _ => ih

theorem Alike.patchHead {e : Env} (d : Int) (a : AtomBounds) : Alike e (patchHead d a) :=
  .bind (.arith _) fun _ => .seek _ _

/-- The writing phase behind the tables. -/
def finishPhase (p : Plan) (oldLen : Nat) (moved : Bytes) (atoms : List AtomData) : W Unit := do
  wAll (patchHead p.lenDiff) p.updateAtoms.reverse
  let n ← (addI (asI64 oldLen) p.lenDiff).w
  wSetLen (asU64 n)
  wSeekStart p.newAtomsStart
  wEmit (newAtomsWr p atoms)
  let m ← (addI (asI64 p.movedDataStart) p.lenDiff).w
  wSeekStart (asU64 m)
  wWriteAll moved
  wFlush

theorem Alike.finish {e : Env} (p : Plan) (ol : Nat) (b : Bytes) (at' : List AtomData) : Alike e (finishPhase p ol b at') :=
  .bind (.all (Alike.patchHead _) _) fun _ => .bind (.arith _) fun _ => .bind (.setLen _) fun _ => .seek _ _

/-! ### The calls so far -/

/-- The calls are added to those before, and explain how the file changed. -/
def Logs {α} (m : W α) : Prop := ∀ e s, ∃ ops, (m e s).2.trace = s.trace ++ ops ∧ (m e s).2.file = ops.foldl Op.apply s.file

/-- The same for a step of the state. -/
def Logged (s t : WSt) : Prop := ∃ ops, t.trace = s.trace ++ ops ∧ t.file = ops.foldl Op.apply s.file

theorem Logged.refl (s : WSt) : Logged s s := ⟨[], (List.append_nil _).symm, rfl⟩
theorem Logged.trans {s t u : WSt} (h : Logged s t) (h' : Logged t u) : Logged s u := by
  obtain ⟨a, h1, h2⟩ := h
  obtain ⟨b, h3, h4⟩ := h'
  exact ⟨a ++ b, by rw [h3, h1, List.append_assoc], by rw [h4, h2, List.foldl_append]⟩

theorem Logged.sys (s : WSt) (b : Bytes) : Logged s (s.sysWrite b) := by
  unfold WSt.sysWrite
  split
  · exact .refl _
  · exact ⟨[.write s.cur b], rfl, rfl⟩

theorem Logged.flush (s : WSt) : Logged s s.flushBuf := by
  obtain ⟨ops, h1, h2⟩ := Logged.sys s s.buf
  exact ⟨ops, h1, h2⟩

theorem Logs.of {α} {m : W α} (h : ∀ e s, Logged s (m e s).2) : Logs m := h

theorem Logs.arith {α} (m : E α) : Logs m.w := fun _ s => Logged.refl s
theorem Logs.pure {α} (a : α) : Logs (Pure.pure a : W α) := fun _ s => Logged.refl s

theorem Logs.bind {α β} {m : W α} {f : α → W β} (hm : Logs m) (hf : ∀ a, Logs (f a)) : Logs (m >>= f) := by
  intro e s
  have h1 : Logged s (m e s).2 := hm e s
  show Logged s (W.bind m f e s).2
  unfold W.bind
  generalize m e s = x at *
  obtain ⟨o, s'⟩ := x
  cases o with
  | ok a => exact h1.trans (hf a e s')
  | err k => exact h1
  | panic => exact h1
  | fuel => exact h1

theorem Logs.seek (n : Nat) : Logs (wSeekStart n) := by
  intro e s
  show Logged s _
  unfold wSeekStart
  dsimp only
  split <;> exact Logged.flush s

theorem Logs.seekCur (n : Nat) : Logs (wSeekCur n) := by
  intro e s
  show Logged s _
  unfold wSeekCur
  dsimp only
  split <;> exact Logged.flush s

theorem Logs.setLen (n : Nat) : Logs (wSetLen n) := by
  intro e s
  show Logged s _
  unfold wSetLen
  split
  · exact ⟨[.setLen n], rfl, rfl⟩
  · exact .refl _

theorem Logs.flush : Logs wFlush := fun _ s => Logged.flush s

theorem Logs.write (b : Bytes) : Logs (wWriteAll b) := by
  intro e s
  show Logged s _
  unfold wWriteAll
  split
  · exact .refl _
  · dsimp only
    have h : Logged s (if b.length > e.cap - s.buf.length then s.flushBuf else s) := by
      split
      · exact .flush s
      · exact .refl s
    generalize (if b.length > e.cap - s.buf.length then s.flushBuf else s) = t at *
    split
    · exact h.trans (.sys _ _)
    · exact h

theorem Logs.all {α} {f : α → W Unit} (h : ∀ a, Logs (f a)) (l : List α) : Logs (wAll f l) := by
  induction l with
  | nil => exact Logs.pure ()
  | cons a l ih => exact Logs.bind (h a) fun _ => ih

theorem Logs.opt {α} {f : α → W Unit} (h : ∀ a, Logs (f a)) (x : Option α) : Logs (wOpt f x) := by
  cases x with
  | none => exact Logs.pure ()
  | some a => exact h a

theorem Logs.ite {α} {q : Prop} [Decidable q] {m m' : W α} (h : Logs m) (h' : Logs m') : Logs (if q then m else m') := by
  split <;> assumption

theorem Logs.emit (m : Wr Unit) : Logs (wEmit m) := by
  intro e s
  have h : Logged s (wAll wWriteAll (m e).1 e s).2 := Logs.all Logs.write _ e s
  show Logged s _
  unfold wEmit
  dsimp only
  generalize wAll wWriteAll (m e).1 e s = x at *
  obtain ⟨o, s'⟩ := x
  cases o <;> exact h

theorem Logs.patchHead (d : Int) (a : AtomBounds) : Logs (patchHead d a) :=
  .bind (.arith _) fun _ => .bind (.seek _) fun _ => .ite (.bind (.write _) fun _ => .bind (.seekCur _) fun _ => .write _) (.write _)

theorem Logs.finish (p : Plan) (ol : Nat) (b : Bytes) (at' : List AtomData) : Logs (finishPhase p ol b at') :=
  .bind (.all (Logs.patchHead _) _) fun _ => .bind (.arith _) fun _ => .bind (.setLen _) fun _ => .bind (.seek _) fun _ =>
    .bind (.emit _) fun _ => .bind (.arith _) fun _ => .bind (.seek _) fun _ => .bind (.write _) fun _ => .flush

theorem Logs.read {α} (pos : Nat) (p : P α) : Logs (wRead pos p) := by
  intro e s
  show Logged s _
  unfold wRead
  dsimp only
  split <;> exact ⟨[], (List.append_nil _).symm, rfl⟩

/-- Writing the new entries of a table. -/
def fillTable (width : Nat) (diff : Int) (tablePos : Nat) (offsets : List Nat) : W Unit := do
  wSeekStart tablePos
  wAll (fun co => do
    let n ← (addI (asI64 co) diff).w
    wWriteAll (toBe width (asU64 n))) offsets
  wFlush

theorem Logs.fill (w : Nat) (d : Int) (tp : Nat) (l : List Nat) : Logs (fillTable w d tp l) :=
  .bind (.seek _) fun _ => .bind (.all (fun _ => .bind (.arith _) fun _ => .write _) _) fun _ => .flush

theorem Logs.patchTable (w : Nat) (d : Int) (a : AtomBounds) : Logs (patchTable w d a) :=
  .bind (.arith _) fun _ => .bind (.read _ _) fun ⟨tp, l⟩ => Logs.fill w d tp l

theorem Logs.patchStbl (d : Int) (a : StblBounds) : Logs (patchStbl d a) :=
  .bind (.opt (Logs.patchTable 4 d) _) fun _ => .opt (Logs.patchTable 8 d) _

/-! ### The tables -/

theorem fillTable_idle {e : Env} {n w tp : Nat} {d : Int} {l : List Nat} (hfit : l = [] ∨ tp + w * l.length ≤ n) {s s' : WSt}
    (hi : Idle n s) (h : fillTable w d tp l e s = (.ok (), s')) : Idle n s' := by
  obtain ⟨u, s3, h3, hC⟩ := W.bind_inv h
  obtain ⟨u', s4, h4, hD⟩ := W.bind_inv hC
  have e3 : s3.file = s.file ∧ s3.buf = [] ∧ s3.cur = tp := by
    unfold wSeekStart at h3
    dsimp only at h3
    split at h3
    · cases h3
      unfold WSt.flushBuf WSt.sysWrite
      simp [hi.2]
    · cases h3
  cases hD
  rcases hfit with rfl | hfit
  · cases h4
    unfold WSt.flushBuf WSt.sysWrite
    rw [e3.2.1]
    exact ⟨by simpa [e3.1] using hi.1, by simp⟩
  · have hin : Inside n tp s3 := ⟨by rw [e3.1, hi.1], by rw [e3.2.1, e3.2.2]; rfl, by omega⟩
    have := (writes_inside l hin hfit h4).flush
    exact ⟨this.1.1, this.2⟩

/-- The calls of the reader between two states: if none was reported, none failed; if none failed, none was reported. -/
structure Ticked (c : Sched) (s s' : BSt) : Prop where
  le : s.tick ≤ s'.tick
  none : s'.hit = false → ∀ k, s.tick ≤ k → k < s'.tick → c k ≠ .err
  good : (∀ k, s.tick ≤ k → k < s'.tick → ∃ n, c k = .give n) → s'.hit = false

theorem Ticked.refl {c : Sched} {s : BSt} (h : s.hit = false) : Ticked c s s := ⟨Nat.le_refl _, fun _ _ _ _ => by omega, fun _ => h⟩

theorem Ticked.trans {c : Sched} {s t u : BSt} (h : Ticked c s t) (ht : t.hit = false) (h' : Ticked c t u) : Ticked c s u := by
  refine ⟨Nat.le_trans h.le h'.le, fun hu k h1 h2 => ?_, fun hg => h'.good fun k h1 h2 => hg k (Nat.le_trans h.le h1) h2⟩
  by_cases hk : k < t.tick
  · exact h.none ht k h1 hk
  · exact h'.none hu k (by omega) h2

/-- The tables are read while the file is being written, through the same `BufReader`. -/
theorem tableBuf_same (c : Sched) (cap : Nat) (e : Env) (F : Bytes) (s : BSt) (pos w : Nat) (size : Size) (hx : Fits e F) (hh : s.hit = false)
    (x : Out (Nat × List Nat) × BSt) (hX : (do seekStartBuf pos; parseTableBuf w size : B (Nat × List Nat)) c cap e F s = x) :
    ((x.2.hit = false ∧ match (do seekStart pos; parseTable w size : P (Nat × List Nat)) e F 0 with
      | .ok (a, _) => x.1 = .ok a
      | .err k => x.1 = .err k
      | .panic => x.1 = .panic
      | .fuel => x.1 = .fuel) ∨ (x.2.hit = true ∧ x.1 = .err .io) ∨ (x.2.hit = false ∧ x.1 = .fuel ∧ ¬ Spec.Enough c e F)) ∧
    Ticked c s x.2 := by
  have hx' : x = B.bind (B.bind (innerSeek pos) fun _ => pure ()) (fun _ => parseTableBuf w size) c cap e F s := hX.symm
  clear hX
  have hy : (do seekStart pos; parseTable w size : P (Nat × List Nat)) e F 0 = P.bind (seekStart pos) (fun _ => parseTable w size) e F 0 := rfl
  rw [hy]
  clear hy
  unfold B.bind innerSeek at hx'
  unfold P.bind seekStart
  rcases hc : c s.tick with k | _ | _ <;> rw [hc] at hx' <;> dsimp only at hx'
  · have one : ∀ k, s.tick ≤ k → k < s.tick + 1 → c k ≠ .err := by
      intro k h1 h2 h3
      rw [show k = s.tick by omega, hc] at h3
      cases h3
    by_cases hp : pos ≤ e.maxPos
    · rw [if_pos ⟨by omega, by omega⟩] at hx'
      change x = parseTableBuf w size c cap e F { s with cur := pos, buf := [], tick := s.tick + 1 } at hx'
      rw [if_pos hp]
      have hl := hx.pos
      have hok : BSt.Ok F { s with cur := pos, buf := [], tick := s.tick + 1 } := BStep.ok_nil rfl (by show pos < 2^63; omega)
      obtain ⟨h1, h2, h3⟩ := (BSim.parseTable (c := c) (cap := cap) w size).same hx (fun _ => RSim.parseTable w size)
        { s with cur := pos, buf := [], tick := s.tick + 1 } hok hh
      obtain ⟨_, _, -, h4, -⟩ := (BSim.parseTable (c := c) (cap := cap) w size).reader hx _ hok
      rw [← hx'] at h1 h2 h3 h4
      change (_ ∧ AgreeBuf x (parseTable w size e F pos)) ∨ _ at h1
      dsimp only at h2 h3 h4 ⊢
      refine ⟨?_, ?_⟩
      · rcases h1 with ⟨h0, h⟩ | h | h
        · refine .inl ⟨h0, ?_⟩
          generalize parseTable w size e F pos = o at h ⊢
          rcases o with ⟨a, q⟩ | _ | _ | _
          · exact h.1
          all_goals exact h
        · exact .inr (.inl h)
        · exact .inr (.inr h)
      · refine ⟨by omega, fun hf k hk1 hk2 => ?_, fun hg => h3 fun k hk1 hk2 => hg k (by omega) hk2⟩
        by_cases hk : k < s.tick + 1
        · exact one k hk1 hk
        · exact h2 hf k (by omega) hk2
    · rw [if_neg (by omega)] at hx'
      rw [if_neg hp]
      subst hx'
      exact ⟨.inl ⟨hh, rfl⟩, ⟨Nat.le_succ _, fun _ => one, fun _ => hh⟩⟩
  all_goals
    subst hx'
    refine ⟨.inr (.inl ⟨rfl, rfl⟩), ⟨Nat.le_succ _, fun h => (by cases h), fun h => ?_⟩⟩
    obtain ⟨n, hn⟩ := h s.tick (Nat.le_refl _) (Nat.lt_succ_self _)
    rw [hc] at hn
    cases hn

/-- The reader failed, or the iterations did not suffice; nothing is in the buffer of the writer, and the calls so far are the first ones
of those leading to `t`. -/
structure Cut (c : Sched) (e : Env) (G : Bytes) (x : CSt) (r : Out Unit × CSt) (t : WSt) : Prop where
  why : (r.2.b.hit = true ∧ r.1 = .err .io) ∨ (r.2.b.hit = false ∧ r.1 = .fuel ∧ ¬ Spec.Enough c e G)
  buf : r.2.w.buf = []
  log : Logged x.w r.2.w
  len : r.2.w.file.length = G.length
  pre : ∃ ops, t.trace = r.2.w.trace ++ ops

/-- What a computation with `BufReader` and `BufWriter` does, compared to one that only has the writer: the same, or the reader failed. -/
structure CSim (c : Sched) (cap : Nat) (e : Env) (G : Bytes) (m : C Unit) (w : W Unit) : Prop where
  logs : Logs w
  run : ∀ x s, Twin x.w s → Idle G.length s → x.b.hit = false →
    (((m c cap e x).1 = (w e s).1 ∧ Twin (m c cap e x).2.w (w e s).2 ∧ (m c cap e x).2.b.hit = false ∧
        ((w e s).1 = .ok () → Idle G.length (w e s).2)) ∨ Cut c e G x (m c cap e x) (w e s).2) ∧
    Ticked c x.b (m c cap e x).2.b

section
variable {c : Sched} {cap : Nat} {e : Env} {G : Bytes}

theorem Logged.same {s t u : WSt} (h : Twin s t) (hl : Logged t u) : ∃ ops, u.trace = s.trace ++ ops := by
  obtain ⟨ops, h1, -⟩ := hl
  exact ⟨ops, by rw [h1, h.trace]⟩

theorem Twin.logged {x s y t : WSt} (h : Twin x s) (hl : Logged s t) (h' : Twin y t) : Logged x y := by
  obtain ⟨ops, h1, h2⟩ := hl
  exact ⟨ops, by rw [h'.trace, h1, h.trace], by rw [h'.file, h2, h.file]⟩

theorem CSim.bind {m m' : C Unit} {w w' : W Unit} (h : CSim c cap e G m w) (h' : CSim c cap e G m' w') :
    CSim c cap e G (do m; m') (do w; w') := by
  refine ⟨h.logs.bind fun _ => h'.logs, fun x s hs hi hh => ?_⟩
  obtain ⟨h1, h2⟩ := h.run x s hs hi hh
  have hlog : Logged s (w e s).2 := h.logs e s
  show (((C.bind m (fun _ => m') c cap e x).1 = (W.bind w (fun _ => w') e s).1 ∧ Twin (C.bind m (fun _ => m') c cap e x).2.w (W.bind w (fun _ => w') e s).2 ∧
      (C.bind m (fun _ => m') c cap e x).2.b.hit = false ∧ ((W.bind w (fun _ => w') e s).1 = .ok () → Idle G.length (W.bind w (fun _ => w') e s).2)) ∨
      Cut c e G x (C.bind m (fun _ => m') c cap e x) (W.bind w (fun _ => w') e s).2) ∧ Ticked c x.b (C.bind m (fun _ => m') c cap e x).2.b
  unfold C.bind W.bind
  generalize w e s = y at *
  generalize m c cap e x = r at *
  obtain ⟨o, s1⟩ := y
  obtain ⟨p, x1⟩ := r
  dsimp only at h1 h2 hlog
  rcases h1 with ⟨e1, h3, h4, h5⟩ | hcut
  · subst e1
    cases p with
    | ok a =>
      obtain ⟨h6, h7⟩ := h'.run x1 s1 h3 (h5 rfl) h4
      refine ⟨?_, h2.trans h4 h7⟩
      rcases h6 with h6 | h6
      · exact .inl h6
      · exact .inr ⟨h6.why, h6.buf, (hs.logged hlog h3).trans h6.log, h6.len, h6.pre⟩
    | err k => exact ⟨.inl ⟨rfl, h3, h4, fun h => by cases h⟩, h2⟩
    | panic => exact ⟨.inl ⟨rfl, h3, h4, fun h => by cases h⟩, h2⟩
    | fuel => exact ⟨.inl ⟨rfl, h3, h4, fun h => by cases h⟩, h2⟩
  · obtain ⟨ops, hops⟩ := hcut.pre
    dsimp only at hops
    have hgo : ∀ t : WSt, Logged s1 t → ∃ ops, t.trace = x1.w.trace ++ ops := fun t ⟨ops', h6, _⟩ =>
      ⟨ops ++ ops', by rw [h6, hops, List.append_assoc]⟩
    rcases hcut.why with ⟨h6, h7⟩ | ⟨h6, h7, h8⟩ <;> dsimp only at h6 h7 <;> subst h7
    · refine ⟨.inr ⟨.inl ⟨h6, rfl⟩, hcut.buf, hcut.log, hcut.len, ?_⟩, h2⟩
      cases o with
      | ok a => exact hgo _ (h'.logs e s1)
      | err k => exact hgo _ (.refl _)
      | panic => exact hgo _ (.refl _)
      | fuel => exact hgo _ (.refl _)
    · refine ⟨.inr ⟨.inr ⟨h6, rfl, h8⟩, hcut.buf, hcut.log, hcut.len, ?_⟩, h2⟩
      cases o with
      | ok a => exact hgo _ (h'.logs e s1)
      | err k => exact hgo _ (.refl _)
      | panic => exact hgo _ (.refl _)
      | fuel => exact hgo _ (.refl _)

theorem CSim.pure : CSim c cap e G (Pure.pure ()) (Pure.pure ()) :=
  ⟨.pure (), fun _ _ hs hi hh => ⟨.inl ⟨rfl, hs, hh, fun _ => hi⟩, .refl hh⟩⟩

theorem CSim.all {α} {f : α → C Unit} {g : α → W Unit} (h : ∀ a, CSim c cap e G (f a) (g a)) (l : List α) :
    CSim c cap e G (cAll f l) (wAll g l) := by
  induction l with
  | nil => exact .pure
  | cons a l ih => exact .bind (h a) ih

theorem CSim.opt {α} {f : α → C Unit} {g : α → W Unit} (h : ∀ a, CSim c cap e G (f a) (g a)) (x : Option α) :
    CSim c cap e G (cOpt f x) (wOpt g x) := by
  cases x with
  | none => exact .pure
  | some a => exact h a

theorem enough_length {F G : Bytes} (h : F.length = G.length) : Spec.Enough c e F → Spec.Enough c e G := by
  rintro ⟨B, h1, h2⟩
  exact ⟨B, h1, by omega⟩

theorem Alike.fill (w : Nat) (d : Int) (tp : Nat) (l : List Nat) : Alike e (fillTable w d tp l) := .seek _ _

theorem CSim.patchTable (hx : Fits e G) {w : Nat} (hw : 0 < w) (d : Int) (a : AtomBounds) :
    CSim c cap e G (patchTableBuf w d a) (patchTable w d a) := by
  refine ⟨.patchTable w d a, fun x s hs hi hh => ?_⟩
  have hl : Logged s (Mp4.patchTable w d a e s).2 := Logs.patchTable w d a e s
  have hL : patchTableBuf w d a c cap e x = C.bind a.contentPos.w.c (fun pos => C.bind
      (do seekStartBuf pos; parseTableBuf w a.size : B (Nat × List Nat)).c (fun y => (fillTable w d y.1 y.2).c)) c cap e x := rfl
  have hR : Mp4.patchTable w d a e s = W.bind a.contentPos.w (fun pos => W.bind (wRead pos (parseTable w a.size))
      (fun y => fillTable w d y.1 y.2)) e s := rfl
  unfold C.bind W.c B.c Mp4.E.w at hL
  unfold W.bind Mp4.E.w at hR
  dsimp only at hL hR
  cases hp : a.contentPos e with
  | ok pos =>
    rw [hp] at hL hR
    dsimp only at hL hR
    have hfit : Fits e x.w.file := ⟨by rw [hs.file, hi.1]; exact hx.file, hx.pos, hx.fuel⟩
    generalize hy : (do seekStartBuf pos; parseTableBuf w a.size : B (Nat × List Nat)) c cap e x.w.file { x.b with cur := x.w.cur } = y at hL
    obtain ⟨h1, h2⟩ := tableBuf_same c cap e x.w.file { x.b with cur := x.w.cur } pos w a.size hfit hh y hy
    have h2' : Ticked c x.b y.2 := ⟨h2.le, h2.none, h2.good⟩
    obtain ⟨o, b1⟩ := y
    dsimp only at h1 h2 h2' hL
    have hsame : Twin { x.w with cur := b1.cur } { s with cur := e.rcur s.trace.length } := ⟨hs.file, hs.buf, hs.trace, .inr hi.2⟩
    rcases h1 with ⟨h0, h1⟩ | h1
    · unfold wRead at hR
      dsimp only at hR
      rw [hs.file] at h1
      generalize hq : (do seekStart pos; parseTable w a.size : P (Nat × List Nat)) e s.file 0 = q at h1 hR
      rcases q with ⟨⟨tp, l⟩, q⟩ | k | _ | _ <;> dsimp only at h1 hR <;> subst h1 <;> dsimp only at hL
      · obtain ⟨h3, h4⟩ := Alike.fill (e := e) w d tp l _ _ hsame
        rw [hL, hR]
        refine ⟨.inl ⟨h3, h4, h0, fun hok => ?_⟩, h2'⟩
        refine fillTable_idle (n := G.length) (w := w) (d := d) (tp := tp) (l := l) (e := e) (s := { s with cur := e.rcur s.trace.length }) ?_ ⟨hi.1, hi.2⟩
          (s' := (fillTable w d tp l e { s with cur := e.rcur s.trace.length }).2) (Prod.ext hok rfl)
        obtain ⟨_, r, -, h5⟩ := P.bind_inv hq
        have := parseTable_fits hw h5
        rwa [hi.1] at this
      all_goals
        rw [hL, hR]
        exact ⟨.inl ⟨rfl, hsame, h0, fun h => by cases h⟩, h2'⟩
    · have hcut : patchTableBuf w d a c cap e x = (if b1.hit then .err .io else .fuel, ⟨b1, { x.w with cur := b1.cur }⟩) := by
        rcases h1 with ⟨h6, h7⟩ | ⟨h6, h7, -⟩ <;> rw [hL, h7, h6] <;> rfl
      rw [hcut]
      refine ⟨.inr ⟨?_, hs.buf.trans hi.2, ⟨[], (List.append_nil _).symm, rfl⟩, by show x.w.file.length = _; rw [hs.file, hi.1], Logged.same (s := x.w) hs hl⟩, h2'⟩
      rcases h1 with ⟨h6, h7⟩ | ⟨h6, h7, h8⟩
      · exact .inl ⟨h6, by rw [if_pos h6]⟩
      · exact .inr ⟨h6, by rw [if_neg (by rw [h6]; decide)], fun h => h8 (enough_length (by rw [hs.file, hi.1]) h)⟩
  | err k =>
    rw [hp] at hL hR
    rw [hL, hR]
    exact ⟨.inl ⟨rfl, hs, hh, fun h => by cases h⟩, .refl hh⟩
  | panic =>
    rw [hp] at hL hR
    rw [hL, hR]
    exact ⟨.inl ⟨rfl, hs, hh, fun h => by cases h⟩, .refl hh⟩
  | fuel =>
    rw [hp] at hL hR
    rw [hL, hR]
    exact ⟨.inl ⟨rfl, hs, hh, fun h => by cases h⟩, .refl hh⟩

theorem CSim.patchStbl (hx : Fits e G) (d : Int) (a : StblBounds) : CSim c cap e G (patchStblBuf d a) (patchStbl d a) :=
  .bind (.opt (CSim.patchTable hx (by decide) d) _) (.opt (CSim.patchTable hx (by decide) d) _)

theorem CSim.finish (p : Plan) (ol : Nat) (b : Bytes) (at' : List AtomData) (x : CSt) (s : WSt) (hs : Twin x.w s) :
    ((finishPhase p ol b at').c c cap e x).1 = (finishPhase p ol b at' e s).1 ∧
    Twin ((finishPhase p ol b at').c c cap e x).2.w (finishPhase p ol b at' e s).2 ∧ ((finishPhase p ol b at').c c cap e x).2.b = x.b := by
  obtain ⟨h1, h2⟩ := Alike.finish (e := e) p ol b at' x.w s hs
  exact ⟨h1, h2, rfl⟩

/-- The writing phase. -/
theorem writePhaseBuf_run (hx : Fits e G) (mp : Nat) (mv : MoovBounds) (p : Plan) (ol : Nat) (b : Bytes) (at' : List AtomData) (x : CSt) (s : WSt)
    (hs : Twin x.w s) (hi : Idle G.length s) (hh : x.b.hit = false) (r : Out Unit × CSt) (t : Out Unit × WSt)
    (hr : writePhaseBuf mp mv p ol b at' c cap e x = r) (ht : writePhase mp mv p ol b at' e s = t) :
    ((r.1 = t.1 ∧ Twin r.2.w t.2 ∧ r.2.b.hit = false) ∨ Cut c e G x r t.2) ∧ Ticked c x.b r.2.b ∧ Logged s t.2 := by
  by_cases hc : mp > mv.bounds.pos
  · have hL : writePhaseBuf mp mv p ol b at' c cap e x =
        C.bind (cAll (patchStblBuf p.lenDiff) (stblAtoms mv)) (fun _ => (finishPhase p ol b at').c) c cap e x := by
      unfold writePhaseBuf
      rw [if_pos hc]
      rfl
    have hR : writePhase mp mv p ol b at' e s = W.bind (wAll (patchStbl p.lenDiff) (stblAtoms mv)) (fun _ => finishPhase p ol b at') e s := by
      unfold writePhase
      rw [if_pos hc]
      rfl
    rw [hL] at hr
    rw [hR] at ht
    have hsim : CSim c cap e G (cAll (patchStblBuf p.lenDiff) (stblAtoms mv)) (wAll (patchStbl p.lenDiff) (stblAtoms mv)) :=
      .all (fun a => CSim.patchStbl hx _ a) _
    obtain ⟨h1, h2⟩ := hsim.run x s hs hi hh
    have hlog : Logged s (wAll (patchStbl p.lenDiff) (stblAtoms mv) e s).2 := hsim.logs e s
    unfold C.bind at hr
    unfold W.bind at ht
    generalize wAll (patchStbl p.lenDiff) (stblAtoms mv) e s = y at *
    generalize cAll (patchStblBuf p.lenDiff) (stblAtoms mv) c cap e x = z at *
    obtain ⟨o, s1⟩ := y
    obtain ⟨q, x1⟩ := z
    dsimp only at h1 h2 hlog
    have hlog' : Logged s t.2 ∧ Logged s1 t.2 := by
      cases o with
      | ok a =>
        have : Logged s1 (finishPhase p ol b at' e s1).2 := Logs.finish p ol b at' e s1
        subst ht
        exact ⟨hlog.trans this, this⟩
      | err k => subst ht; exact ⟨hlog, .refl _⟩
      | panic => subst ht; exact ⟨hlog, .refl _⟩
      | fuel => subst ht; exact ⟨hlog, .refl _⟩
    rcases h1 with ⟨e1, h3, h4, h5⟩ | hcut
    · subst e1
      cases q with
      | ok a =>
        obtain ⟨h6, h7, h8⟩ := CSim.finish (c := c) (cap := cap) (e := e) p ol b at' x1 s1 h3
        subst hr ht
        exact ⟨.inl ⟨h6, h7, by show (W.c _ c cap e x1).2.b.hit = false; rw [h8]; exact h4⟩, by show Ticked c x.b (W.c _ c cap e x1).2.b; rw [h8]; exact h2, hlog'.1⟩
      | err k => subst hr ht; exact ⟨.inl ⟨rfl, h3, h4⟩, h2, hlog'.1⟩
      | panic => subst hr ht; exact ⟨.inl ⟨rfl, h3, h4⟩, h2, hlog'.1⟩
      | fuel => subst hr ht; exact ⟨.inl ⟨rfl, h3, h4⟩, h2, hlog'.1⟩
    · obtain ⟨ops, hops⟩ := hcut.pre
      dsimp only at hops
      have hpre : ∃ ops, t.2.trace = x1.w.trace ++ ops := by
        obtain ⟨ops', h6, -⟩ := hlog'.2
        exact ⟨ops ++ ops', by rw [h6, hops, List.append_assoc]⟩
      rcases hcut.why with ⟨h6, h7⟩ | ⟨h6, h7, h8⟩ <;> dsimp only at h6 h7 <;> subst h7 <;> subst hr
      · exact ⟨.inr ⟨.inl ⟨h6, rfl⟩, hcut.buf, hcut.log, hcut.len, hpre⟩, h2, hlog'.1⟩
      · exact ⟨.inr ⟨.inr ⟨h6, rfl, h8⟩, hcut.buf, hcut.log, hcut.len, hpre⟩, h2, hlog'.1⟩
  · have hL : writePhaseBuf mp mv p ol b at' c cap e x = (finishPhase p ol b at').c c cap e x := by
      unfold writePhaseBuf
      rw [if_neg hc]
      rfl
    have hR : writePhase mp mv p ol b at' e s = finishPhase p ol b at' e s := by
      unfold writePhase
      rw [if_neg hc]
      rfl
    rw [hL] at hr
    rw [hR] at ht
    obtain ⟨h6, h7, h8⟩ := CSim.finish (c := c) (cap := cap) (e := e) p ol b at' x s hs
    have hlog : Logged s (finishPhase p ol b at' e s).2 := Logs.finish p ol b at' e s
    rw [hr, ht] at h6 h7
    rw [hr] at h8
    rw [ht] at hlog
    exact ⟨.inl ⟨h6, h7, by rw [h8]; exact hh⟩, by rw [h8]; exact .refl hh, hlog⟩

/-- The whole save. -/
theorem writeTagToBuf_run (hx : Fits e G) {pos : Nat} (hp : pos < 2^63) (at' : List AtomData) (r : Out Unit × CSt) (t : Out Unit × WSt)
    (hr : writeTagToBuf c cap e G pos at' = r) (ht : writeTagTo e G pos at' = t) :
    ((r.1 = t.1 ∧ r.2.w.file = t.2.file ∧ r.2.w.trace = t.2.trace ∧ r.2.b.hit = false) ∨
      (((r.2.b.hit = true ∧ r.1 = .err .io) ∨ (r.2.b.hit = false ∧ r.1 = .fuel ∧ ¬ Spec.Enough c e G)) ∧
        r.2.w.file = r.2.w.trace.foldl Op.apply G ∧ r.2.w.file.length = G.length ∧ ∃ ops, t.2.trace = r.2.w.trace ++ ops)) ∧
    Ticked c { cur := pos } r.2.b := by
  have hr' : ((C.bind (preparePhaseBuf at').c (fun y => writePhaseBuf y.1 y.2.1 y.2.2.1 y.2.2.2.1 y.2.2.2.2 at') c cap e
        ⟨{ cur := pos }, { file := G, cur := pos }⟩).1,
      (⟨(C.bind (preparePhaseBuf at').c (fun y => writePhaseBuf y.1 y.2.1 y.2.2.1 y.2.2.2.1 y.2.2.2.2 at') c cap e
        ⟨{ cur := pos }, { file := G, cur := pos }⟩).2.b,
        (C.bind (preparePhaseBuf at').c (fun y => writePhaseBuf y.1 y.2.1 y.2.2.1 y.2.2.2.1 y.2.2.2.2 at') c cap e
        ⟨{ cur := pos }, { file := G, cur := pos }⟩).2.w.flushBuf⟩ : CSt)) = r := hr
  clear hr
  have hok : BSt.Ok G { cur := pos } := BStep.ok_nil rfl hp
  obtain ⟨h1, h2, h3⟩ := (BSim.preparePhase (c := c) (cap := cap) at').same hx (fun _ => RSim.preparePhase at') { cur := pos } hok rfl
  obtain ⟨_, _, -, h4, -⟩ := (BSim.preparePhase (c := c) (cap := cap) at').reader hx _ hok
  have hT : Ticked c { cur := pos } (preparePhaseBuf at' c cap e G { cur := pos }).2 := ⟨h4, h2, h3⟩
  unfold C.bind B.c at hr'
  dsimp only at hr'
  change (_ ∧ AgreeBuf _ (preparePhase at' e G pos)) ∨ _ at h1
  unfold writeTagTo at ht
  generalize preparePhaseBuf at' c cap e G { cur := pos } = y at *
  clear h2 h3 h4
  obtain ⟨o, b1⟩ := y
  dsimp only at h1 hT hr'
  have hnil : ∀ cur, ({ file := G, cur := cur } : WSt).flushBuf = { file := G, cur := cur } := fun _ => rfl
  rcases h1 with ⟨h0, h1⟩ | h1
  · generalize preparePhase at' e G pos = q at h1 ht
    rcases q with ⟨⟨mp, mv, p, ol, b⟩, q⟩ | k | _ | _
    · have := h1.1
      dsimp only at this
      subst this
      dsimp only at hr' ht
      obtain ⟨h5, h6, h7⟩ := writePhaseBuf_run (c := c) (cap := cap) hx mp mv p ol b at' ⟨b1, { file := G, cur := b1.cur }⟩ { file := G, cur := e.rcur 0 }
        ⟨rfl, rfl, rfl, .inr rfl⟩ ⟨rfl, rfl⟩ h0 _ _ rfl rfl
      generalize writePhaseBuf mp mv p ol b at' c cap e ⟨b1, { file := G, cur := b1.cur }⟩ = z at *
      generalize writePhase mp mv p ol b at' e { file := G, cur := e.rcur 0 } = z' at *
      subst hr' ht
      refine ⟨?_, hT.trans h0 h6⟩
      rcases h5 with ⟨h8, h9, h10⟩ | hcut
      · exact .inl ⟨h8, h9.flush.file, h9.flush.trace, h10⟩
      · obtain ⟨ops, hops⟩ := hcut.pre
        obtain ⟨ops', hops', -⟩ := Logged.flush z'.2
        obtain ⟨ops2, h11, h12⟩ := hcut.log
        refine .inr ⟨hcut.why, ?_, ?_, ops ++ ops', ?_⟩
        · dsimp only
          rw [flushBuf_nil hcut.buf, h12, h11]
          rfl
        · dsimp only
          rw [flushBuf_nil hcut.buf, hcut.len]
        · dsimp only
          rw [flushBuf_nil hcut.buf, hops', hops, List.append_assoc]
    all_goals
      have : o = _ := h1
      subst this
      subst hr' ht
      exact ⟨.inl ⟨rfl, rfl, rfl, h0⟩, hT⟩
  · have hops : ∃ ops, t.2.trace = [] ++ ops := ⟨_, rfl⟩
    rcases h1 with ⟨h6, h7⟩ | ⟨h6, h7, h8⟩ <;> subst h7 <;> subst hr'
    · exact ⟨.inr ⟨.inl ⟨h6, rfl⟩, rfl, rfl, hops⟩, hT⟩
    · exact ⟨.inr ⟨.inr ⟨h6, rfl, h8⟩, rfl, rfl, hops⟩, hT⟩

end

end Mp4
