import Verif.Proof.Stable
import Verif.Proof.Writer
/-
The capacity of the `BufWriter`, and where reading leaves the cursor, do not matter: two runs whose files are the same once the buffers are
written out stay so.
-/
namespace Mp4

/-- Environments that differ only in the capacity of the writer and in where reading leaves the cursor. -/
structure Env.Kin (e e' : Env) : Prop where
  checked : e'.checked = e.checked
  fuel : e'.fuel = e.fuel
  maxPos : e'.maxPos = e.maxPos

variable {e e' : Env}

theorem Env.Kin.le (h : e.Kin e') : e.Le e' := ⟨Nat.le_of_eq h.fuel.symm, fun hc => h.checked ▸ hc, h.maxPos⟩
theorem Env.Kin.symm (h : e.Kin e') : e'.Kin e := ⟨h.checked.symm, h.fuel.symm, h.maxPos.symm⟩

theorem Env.Kin.E {α} (h : e.Kin e') {m : E α} (h1 : EStable e e' m) (h2 : EStable e' e m) : m e' = m e := by
  rcases h1.run with ⟨-, h3⟩ | h3 | h3
  · exact absurd h.checked h3
  · rcases h2.run with ⟨-, h4⟩ | h4 | h4
    · exact absurd h.checked.symm h4
    · rw [h3, h4]
    · exact h4.symm
  · exact h3

theorem Env.Kin.P {α} (h : e.Kin e') {m : P α} (h1 : PStable e e' m m) (h2 : PStable e' e m m) (F p) : m e' F p = m e F p := by
  rcases h1.run F p with ⟨-, h3⟩ | h3 | h3
  · exact absurd h.checked h3
  · rcases h2.run F p with ⟨-, h4⟩ | h4 | h4
    · exact absurd h.checked.symm h4
    · rw [h3, h4]
    · exact h4.symm
  · exact h3

/-! ### What is in the file once the buffer is written out -/

/-- The files are the same. -/
def V0 (s t : WSt) : Prop := s.flushBuf.file = t.flushBuf.file
/-- The files and the cursors are the same. -/
def Vc (s t : WSt) : Prop := s.flushBuf.file = t.flushBuf.file ∧ s.flushBuf.cur = t.flushBuf.cur
/-- Nothing is buffered. -/
def VI (s t : WSt) : Prop := s.file = t.file ∧ s.buf = [] ∧ t.buf = []
/-- The same is buffered, or nothing. -/
def VH (s t : WSt) : Prop := s.file = t.file ∧ s.buf = t.buf ∧ (s.cur = t.cur ∨ t.buf = [])

theorem sysWrite_nil (s : WSt) : s.sysWrite [] = s := rfl

theorem flush_idle {s : WSt} (h : s.buf = []) : s.flushBuf = s := by
  obtain ⟨f, c, b, t⟩ := s
  dsimp only at h
  subst h
  rfl

theorem flushBuf_idem (s : WSt) : s.flushBuf.flushBuf = s.flushBuf := flush_idle rfl

theorem flush_file (s : WSt) : s.flushBuf.file = (s.sysWrite s.buf).file := rfl
theorem flush_cur (s : WSt) : s.flushBuf.cur = (s.sysWrite s.buf).cur := rfl

theorem sysWrite_append (s : WSt) (a b : Bytes) :
    ((s.sysWrite a).sysWrite b).file = (s.sysWrite (a ++ b)).file ∧ ((s.sysWrite a).sysWrite b).cur = (s.sysWrite (a ++ b)).cur := by
  cases a with
  | nil => exact ⟨rfl, rfl⟩
  | cons x a =>
    cases b with
    | nil => rw [List.append_nil, sysWrite_nil]; exact ⟨rfl, rfl⟩
    | cons y b =>
      refine ⟨writeAt_append _ _ _ _, ?_⟩
      show s.cur + (x :: a).length + (y :: b).length = s.cur + (x :: a ++ y :: b).length
      rw [List.length_append, Nat.add_assoc]

theorem sysWrite_same {s t : WSt} (h1 : s.file = t.file) (h2 : s.cur = t.cur) (b : Bytes) :
    (s.sysWrite b).file = (t.sysWrite b).file ∧ (s.sysWrite b).cur = (t.sysWrite b).cur := by
  cases b with
  | nil => exact ⟨h1, h2⟩
  | cons x b => simp [WSt.sysWrite, h1, h2]

/-- Writing through the buffer. -/
theorem writeAll_view (b : Bytes) (e : Env) (s : WSt) : (wWriteAll b e s).1 = .ok () ∧
    (wWriteAll b e s).2.flushBuf.file = (s.flushBuf.sysWrite b).file ∧ (wWriteAll b e s).2.flushBuf.cur = (s.flushBuf.sysWrite b).cur := by
  have happ : ∀ s : WSt, ({ s with buf := s.buf ++ b } : WSt).flushBuf.file = (s.flushBuf.sysWrite b).file ∧
      ({ s with buf := s.buf ++ b } : WSt).flushBuf.cur = (s.flushBuf.sysWrite b).cur := by
    intro s
    obtain ⟨h1, h2⟩ := sysWrite_append s s.buf b
    obtain ⟨h3, h4⟩ := sysWrite_same (s := s.flushBuf) (t := s.sysWrite s.buf) rfl rfl b
    obtain ⟨h5, h6⟩ := sysWrite_same (s := { s with buf := s.buf ++ b }) (t := s) rfl rfl (s.buf ++ b)
    exact ⟨h5.trans (h1.symm.trans h3.symm), h6.trans (h2.symm.trans h4.symm)⟩
  have hdir : ∀ s : WSt, s.buf = [] → (s.sysWrite b).flushBuf.file = (s.flushBuf.sysWrite b).file ∧
      (s.sysWrite b).flushBuf.cur = (s.flushBuf.sysWrite b).cur := by
    intro s hs
    have : (s.sysWrite b).buf = [] := by
      unfold WSt.sysWrite
      split
      · exact hs
      · exact hs
    rw [flush_idle this, flush_idle hs]
    exact ⟨rfl, rfl⟩
  unfold wWriteAll
  by_cases h0 : b.length < e.cap - s.buf.length
  · rw [if_pos h0]
    exact ⟨rfl, happ s⟩
  · rw [if_neg h0]
    dsimp only
    by_cases h1 : b.length > e.cap - s.buf.length <;> by_cases h2 : b.length ≥ e.cap
    · rw [if_pos h1, if_pos h2]
      have := hdir s.flushBuf rfl
      rw [flushBuf_idem] at this
      exact ⟨rfl, this⟩
    · rw [if_pos h1, if_neg h2]
      have := happ s.flushBuf
      rw [flushBuf_idem] at this
      exact ⟨rfl, this⟩
    · rw [if_neg h1, if_pos h2]
      by_cases hb : b = []
      · subst hb
        exact ⟨rfl, rfl, rfl⟩
      · have hl : 0 < b.length := List.length_pos_iff.mpr hb
        exact ⟨rfl, hdir s (List.eq_nil_of_length_eq_zero (by omega))⟩
    · rw [if_neg h1, if_neg h2]
      exact ⟨rfl, happ s⟩

/-- Two runs of the same part of the save: if they begin in states related by `A`, the outcomes are the same, the files are the same once
the buffers are written out, and after success the states are related by `B`. -/
def Pair (e e' : Env) (A B : WSt → WSt → Prop) {α} (m : W α) : Prop := ∀ s t, A s t →
  (m e' t).1 = (m e s).1 ∧ V0 (m e s).2 (m e' t).2 ∧ (∀ a, (m e s).1 = .ok a → B (m e s).2 (m e' t).2)

theorem Pair.bind {α β} {A B C : WSt → WSt → Prop} {m : W α} {f : α → W β} (h1 : Pair e e' A B m) (h2 : ∀ a, Pair e e' B C (f a)) :
    Pair e e' A C (m >>= f) := by
  intro s t hst
  rw [W.bind_apply, W.bind_apply]
  obtain ⟨h3, h4, h5⟩ := h1 s t hst
  generalize m e s = x at *
  generalize m e' t = y at *
  obtain ⟨o, s1⟩ := x
  obtain ⟨o', t1⟩ := y
  dsimp only at h3 h4 h5
  subst h3
  cases o' with
  | ok a => exact h2 a s1 t1 (h5 a rfl)
  | err k => exact ⟨rfl, h4, nofun⟩
  | panic => exact ⟨rfl, h4, nofun⟩
  | fuel => exact ⟨rfl, h4, nofun⟩

theorem Pair.mono {α} {A A' B B' : WSt → WSt → Prop} {m : W α} (h : Pair e e' A B m) (hA : ∀ s t, A' s t → A s t) (hB : ∀ s t, B s t → B' s t) :
    Pair e e' A' B' m :=
  fun s t hst => let ⟨h1, h2, h3⟩ := h s t (hA s t hst); ⟨h1, h2, fun a ha => hB _ _ (h3 a ha)⟩

theorem Pair.E {α} {A : WSt → WSt → Prop} (hA : ∀ s t, A s t → V0 s t) {m : E α} (h : m e' = m e) : Pair e e' A A m.w :=
  fun s t hst => ⟨h, hA s t hst, fun _ _ => hst⟩

theorem Pair.pure {α} {A : WSt → WSt → Prop} (hA : ∀ s t, A s t → V0 s t) (a : α) : Pair e e' A A (Pure.pure a) :=
  fun s t hst => ⟨rfl, hA s t hst, fun _ _ => hst⟩

theorem Pair.all {α} {A : WSt → WSt → Prop} (hA : ∀ s t, A s t → V0 s t) {f : α → W Unit} (h : ∀ a, Pair e e' A A (f a)) :
    ∀ l, Pair e e' A A (wAll f l)
  | [] => .pure hA ()
  | x :: l => .bind (h x) fun _ => Pair.all hA h l

theorem Pair.opt {α} {A : WSt → WSt → Prop} (hA : ∀ s t, A s t → V0 s t) {f : α → W Unit} (h : ∀ a, Pair e e' A A (f a)) (x : Option α) :
    Pair e e' A A (wOpt f x) := by
  cases x with
  | none => exact .pure hA ()
  | some a => exact h a

theorem Vc.v0 (s t : WSt) (h : Vc s t) : V0 s t := h.1

theorem VI.v0 (s t : WSt) (h : VI s t) : V0 s t := by
  unfold V0
  rw [flush_idle h.2.1, flush_idle h.2.2]
  exact h.1

theorem VH.v0 (s t : WSt) (h : VH s t) : V0 s t := by
  rcases h.2.2 with hc | hb
  · unfold V0
    rw [flush_file, flush_file, h.2.1]
    exact (sysWrite_same h.1 hc _).1
  · exact VI.v0 s t ⟨h.1, h.2.1.trans hb, hb⟩

theorem VI.vh (s t : WSt) (h : VI s t) : VH s t := ⟨h.1, h.2.1.trans h.2.2.symm, .inr h.2.2⟩

theorem Pair.write (b : Bytes) : Pair e e' Vc Vc (wWriteAll b) := by
  intro s t hst
  obtain ⟨h1, h2, h3⟩ := writeAll_view b e s
  obtain ⟨h4, h5, h6⟩ := writeAll_view b e' t
  obtain ⟨h7, h8⟩ := sysWrite_same hst.1 hst.2 b
  have h9 : Vc (wWriteAll b e s).2 (wWriteAll b e' t).2 := ⟨by rw [h2, h5, h7], by rw [h3, h6, h8]⟩
  exact ⟨by rw [h1, h4], h9.1, fun _ _ => h9⟩

theorem Pair.flush : Pair e e' V0 VI wFlush := by
  intro s t hst
  refine ⟨rfl, ?_, fun _ _ => ⟨hst, rfl, rfl⟩⟩
  show s.flushBuf.flushBuf.file = t.flushBuf.flushBuf.file
  rw [flushBuf_idem, flushBuf_idem]
  exact hst

/-- After a seek nothing is buffered, and the cursors are the same. -/
def VS (s t : WSt) : Prop := s.file = t.file ∧ s.buf = [] ∧ t.buf = [] ∧ s.cur = t.cur
/-- The same is buffered, at the same place. -/
def VB (s t : WSt) : Prop := s.file = t.file ∧ s.buf = t.buf ∧ s.cur = t.cur

theorem VS.vc (s t : WSt) (h : VS s t) : Vc s t := by
  unfold Vc
  rw [flush_idle h.2.1, flush_idle h.2.2.1]
  exact ⟨h.1, h.2.2.2⟩
theorem VS.v0 (s t : WSt) (h : VS s t) : V0 s t := (VS.vc s t h).1
theorem VB.vh (s t : WSt) (h : VB s t) : VH s t := ⟨h.1, h.2.1, .inl h.2.2⟩
theorem VB.v0 (s t : WSt) (h : VB s t) : V0 s t := VH.v0 s t (VB.vh s t h)

theorem Pair.seek (hk : e.Kin e') (n : Nat) : Pair e e' V0 VS (wSeekStart n) := by
  intro s t hst
  unfold wSeekStart
  dsimp only
  rw [hk.maxPos]
  have h : V0 s.flushBuf t.flushBuf := by
    unfold V0
    rw [flushBuf_idem, flushBuf_idem]
    exact hst
  split
  · exact ⟨rfl, VS.v0 _ _ ⟨hst, rfl, rfl, rfl⟩, fun _ _ => ⟨hst, rfl, rfl, rfl⟩⟩
  · exact ⟨rfl, h, nofun⟩

theorem Pair.seekCur (hk : e.Kin e') (n : Nat) : Pair e e' VB VS (wSeekCur n) := by
  intro s t hst
  unfold wSeekCur
  dsimp only
  have h0 := VB.v0 s t hst
  have h : V0 s.flushBuf t.flushBuf := by
    unfold V0
    rw [flushBuf_idem, flushBuf_idem]
    exact h0
  have hc : s.flushBuf.cur = t.flushBuf.cur := by
    rw [flush_cur, flush_cur, hst.2.1]
    exact (sysWrite_same hst.1 hst.2.2 _).2
  rw [hk.maxPos, hc]
  split
  · have hv : VS { s.flushBuf with cur := t.flushBuf.cur + n } { t.flushBuf with cur := t.flushBuf.cur + n } := ⟨h0, rfl, rfl, rfl⟩
    exact ⟨rfl, VS.v0 _ _ hv, fun _ _ => hv⟩
  · exact ⟨rfl, h, nofun⟩

/-- What fits into both buffers is only buffered. -/
theorem Pair.small {b : Bytes} (h : b.length < e.cap) (h' : b.length < e'.cap) : Pair e e' VS VB (wWriteAll b) := by
  intro s t hst
  have hv : VB { s with buf := s.buf ++ b } { t with buf := t.buf ++ b } := ⟨hst.1, by dsimp only; rw [hst.2.1, hst.2.2.1], hst.2.2.2⟩
  unfold wWriteAll
  rw [if_pos (by rw [hst.2.2.1]; exact h'), if_pos (by rw [hst.2.1]; exact h)]
  exact ⟨rfl, VB.v0 _ _ hv, fun _ _ => hv⟩

theorem Pair.setLen (hk : e.Kin e') (n : Nat) : Pair e e' VH VH (wSetLen n) := by
  intro s t hst
  unfold wSetLen
  rw [hk.maxPos]
  split
  · have hv : VH { s with file := fileSetLen s.file n, trace := s.trace ++ [.setLen n] } { t with file := fileSetLen t.file n, trace := t.trace ++ [.setLen n] } :=
      ⟨by dsimp only; rw [hst.1], hst.2⟩
    exact ⟨rfl, VH.v0 _ _ hv, fun _ _ => hv⟩
  · exact ⟨rfl, VH.v0 _ _ hst, nofun⟩

theorem Pair.read {α} (hk : e.Kin e') (n : Nat) {p : P α} (h1 : PStable e e' p p) (h2 : PStable e' e p p) : Pair e e' VI VI (wRead n p) := by
  intro s t hst
  have h : (Mp4.seekStart n >>= fun _ => p) e' t.file 0 = (Mp4.seekStart n >>= fun _ => p) e s.file 0 := by
    rw [hst.1]
    exact hk.P (PStable.bind (.seekStart hk.le n) fun _ => h1) (PStable.bind (.seekStart hk.symm.le n) fun _ => h2) t.file 0
  have hv : VI { s with cur := e.rcur s.trace.length } { t with cur := e'.rcur t.trace.length } := hst
  have h0 := VI.v0 _ _ hv
  unfold wRead
  rw [h]
  dsimp only
  cases (Mp4.seekStart n >>= fun _ => p) e s.file 0 with
  | ok x => exact ⟨rfl, h0, fun _ _ => hv⟩
  | err k => exact ⟨rfl, h0, nofun⟩
  | panic => exact ⟨rfl, h0, nofun⟩
  | fuel => exact ⟨rfl, h0, nofun⟩

theorem Pair.emit {m : Wr Unit} (hm : m e' = m e) : Pair e e' Vc Vc (wEmit m) := by
  intro s t hst
  unfold wEmit
  dsimp only
  rw [hm]
  obtain ⟨h1, h2, h3⟩ := Pair.all (e := e) (e' := e') Vc.v0 (fun b => Pair.write b) (m e).1 s t hst
  generalize wAll wWriteAll (m e).1 e s = x at *
  generalize wAll wWriteAll (m e).1 e' t = y at *
  obtain ⟨o, s1⟩ := x
  obtain ⟨o', t1⟩ := y
  dsimp only at h1 h2 h3
  subst h1
  cases o' with
  | ok a => exact ⟨rfl, h2, fun _ _ => h3 a rfl⟩
  | err k => exact ⟨rfl, h2, nofun⟩
  | panic => exact ⟨rfl, h2, nofun⟩
  | fuel => exact ⟨rfl, h2, nofun⟩

theorem Env.Kin.Wr (h : e.Kin e') {m : Wr Unit} (h1 : WrStable e e' m) (h2 : WrTerm e m) : m e' = m e := by
  rcases h1.run with ⟨-, h3⟩ | h3 | h3
  · exact absurd h.checked h3
  · exact absurd h3 h2
  · exact h3

theorem Pair.addI (hk : e.Kin e') {A : WSt → WSt → Prop} (hA : ∀ s t, A s t → V0 s t) (a b : Int) : Pair e e' A A (addI a b).w :=
  .E hA (hk.E (.addI hk.le a b) (.addI hk.symm.le a b))

theorem Pair.patchTable (hk : e.Kin e') (w d a) : Pair e e' VI VI (patchTable w d a) :=
  .bind (.E VI.v0 (hk.E (.contentPos hk.le a) (.contentPos hk.symm.le a))) fun _ =>
    .bind (.read hk _ (.parseTable hk.le _ _) (.parseTable hk.symm.le _ _)) fun _ =>
    .bind ((Pair.seek hk _).mono VI.v0 VS.vc) fun _ =>
    .bind (.all Vc.v0 (fun _ => .bind (.addI hk Vc.v0 _ _) fun _ => .write _) _) fun _ => Pair.flush.mono Vc.v0 fun _ _ h => h

theorem Pair.patchHead (hk : e.Kin e') (h8 : 8 < e.cap) (h8' : 8 < e'.cap) (d a) : Pair e e' VH VH (patchHead d a) := by
  refine .bind (.addI hk VH.v0 _ _) fun _ => .bind ((Pair.seek hk _).mono VH.v0 fun _ _ h => h) fun _ => ?_
  split
  · exact .bind (.small (by rw [toBe_length]; omega) (by rw [toBe_length]; omega)) fun _ => .bind (.seekCur hk _) fun _ =>
      (Pair.small (by rw [toBe_length]; omega) (by rw [toBe_length]; omega)).mono (fun _ _ h => h) VB.vh
  · exact (Pair.small (by rw [toBe_length]; omega) (by rw [toBe_length]; omega)).mono (fun _ _ h => h) VB.vh

theorem Pair.writePhase (hk : e.Kin e') (h8 : 8 < e.cap) (h8' : 8 < e'.cap) (mp mo p ol mv at') :
    Pair e e' VI VI (writePhase mp mo p ol mv at') := by
  have h2 : Pair e e' VI VI (do
      Mp4.wAll (Mp4.patchHead p.lenDiff) p.updateAtoms.reverse
      let n ← (Mp4.addI (asI64 ol) p.lenDiff).w
      Mp4.wSetLen (asU64 n)
      Mp4.wSeekStart p.newAtomsStart
      Mp4.wEmit (newAtomsWr p at')
      let m ← (Mp4.addI (asI64 p.movedDataStart) p.lenDiff).w
      Mp4.wSeekStart (asU64 m)
      Mp4.wWriteAll mv
      Mp4.wFlush) :=
    .bind ((Pair.all VH.v0 (Pair.patchHead hk h8 h8' _) _).mono VI.vh fun _ _ h => h) fun _ => .bind (.addI hk VH.v0 _ _) fun _ =>
      .bind (.setLen hk _) fun _ => .bind ((Pair.seek hk _).mono VH.v0 VS.vc) fun _ =>
      .bind (.emit (hk.Wr (.newAtoms hk.le _ _) (.newAtoms _ _))) fun _ => .bind (.addI hk Vc.v0 _ _) fun _ =>
      .bind ((Pair.seek hk _).mono Vc.v0 VS.vc) fun _ => .bind (.write _) fun _ => Pair.flush.mono Vc.v0 fun _ _ h => h
  unfold Mp4.writePhase
  split
  · exact .bind (.all VI.v0 (fun _ => .bind (.opt VI.v0 (Pair.patchTable hk _ _) _) fun _ => .opt VI.v0 (Pair.patchTable hk _ _) _) _) fun _ => h2
  · exact h2

/-- The whole save. -/
theorem writeTagTo_kin (hk : e.Kin e') (h8 : 8 < e.cap) (h8' : 8 < e'.cap) (F : Bytes) (pos : Nat) (atoms : List AtomData) :
    (writeTagTo e' F pos atoms).1 = (writeTagTo e F pos atoms).1 ∧ (writeTagTo e' F pos atoms).2.file = (writeTagTo e F pos atoms).2.file := by
  have h := hk.P (.preparePhase hk.le atoms) (.preparePhase hk.symm.le atoms) F pos
  unfold writeTagTo
  rw [h]
  cases preparePhase atoms e F pos with
  | ok x =>
    obtain ⟨⟨a, b, c, d, f⟩, x⟩ := x
    obtain ⟨h1, h2, -⟩ := Pair.writePhase hk h8 h8' a b c d f atoms { file := F, cur := e.rcur 0 } { file := F, cur := e'.rcur 0 } ⟨rfl, rfl, rfl⟩
    exact ⟨h1, h2.symm⟩
  | err k => exact ⟨rfl, rfl⟩
  | panic => exact ⟨rfl, rfl⟩
  | fuel => exact ⟨rfl, rfl⟩

end Mp4
