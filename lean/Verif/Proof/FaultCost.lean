import Verif.Proof.Fault
import Verif.Spec.Cost
/-
What a save writes when calls fail, compared with the same save without failures.
-/
namespace Mp4
open Spec

/-- The bytes written and those still in the buffer. -/
def effort (s : WSt) : Nat := written s.trace + s.buf.length

/-- The calls made, and one more if there is something in the buffer. -/
def callsDue (s : WSt) : Nat := s.trace.length + if s.buf = [] then 0 else 1

theorem written_snoc (t : List Op) (o : Op) : written (t ++ [o]) = written t + opBytes o := by
  simp [written]

theorem sysWrite_effort (s : WSt) (b : Bytes) : effort (s.sysWrite b) = effort s + b.length ∧
    callsDue s ≤ callsDue (s.sysWrite b) ∧ callsDue (s.sysWrite b) ≤ callsDue s + 1 ∧ (s.sysWrite b).buf = s.buf := by
  unfold WSt.sysWrite
  split
  · rename_i h
    rw [List.isEmpty_iff.mp h]
    exact ⟨rfl, Nat.le_refl _, by omega, rfl⟩
  · refine ⟨?_, ?_, ?_, rfl⟩
    · simp only [effort, written_snoc, opBytes]; omega
    · simp only [callsDue, List.length_append, List.length_singleton]; omega
    · simp only [callsDue, List.length_append, List.length_singleton]; omega

theorem flushBuf_effort (s : WSt) : effort s.flushBuf = effort s ∧ callsDue s.flushBuf = callsDue s ∧ s.flushBuf.buf = [] := by
  by_cases h : s.buf = []
  · rw [flushBuf_nil h]; exact ⟨rfl, rfl, h⟩
  · unfold WSt.flushBuf WSt.sysWrite
    rw [if_neg (by simpa using h)]
    refine ⟨?_, ?_, rfl⟩
    · simp only [effort, written_snoc, opBytes, List.length_nil]; omega
    · simp only [callsDue, List.length_append, List.length_singleton, if_neg h, if_true]

/-- What a computation without failures has written stays written. -/
def Grows {α} (w : W α) : Prop := ∀ e s, effort s ≤ effort (w e s).2 ∧ callsDue s ≤ callsDue (w e s).2

/-- Either nothing failed and the result is that of `w`, or less has been written than `w` writes, with at most one call more. -/
def Upto {α} (m : FW α) (w : W α) : Prop := ∀ fl e (s : FSt),
  ((m fl e s).1 = (w e s.toWSt).1 ∧ (m fl e s).2.toWSt = (w e s.toWSt).2) ∨
  ((∀ a, (m fl e s).1 ≠ .ok a) ∧ effort (m fl e s).2.toWSt ≤ effort (w e s.toWSt).2 ∧
    callsDue (m fl e s).2.toWSt ≤ callsDue (w e s.toWSt).2 + 1)

/-- Both. -/
structure Less {α} (m : FW α) (w : W α) : Prop where
  upto : Upto m w
  grows : Grows w

theorem Less.bind {α β} {m : FW α} {w : W α} {f : α → FW β} {g : α → W β} (h1 : Less m w) (h2 : ∀ a, Less (f a) (g a)) :
    Less (m >>= f) (w >>= g) := by
  have hgrow : ∀ e s, effort (w e s).2 ≤ effort (W.bind w g e s).2 ∧ callsDue (w e s).2 ≤ callsDue (W.bind w g e s).2 := by
    intro e s
    rw [W.bind]
    rcases hw : w e s with ⟨r, t⟩
    cases r with
    | ok a => exact (h2 a).grows e t
    | err k => exact ⟨Nat.le_refl _, Nat.le_refl _⟩
    | panic => exact ⟨Nat.le_refl _, Nat.le_refl _⟩
    | fuel => exact ⟨Nat.le_refl _, Nat.le_refl _⟩
  refine ⟨fun fl e s => ?_, fun e s => ?_⟩
  · show ((FW.bind m f fl e s).1 = (W.bind w g e s.toWSt).1 ∧ (FW.bind m f fl e s).2.toWSt = (W.bind w g e s.toWSt).2) ∨
      ((∀ a, (FW.bind m f fl e s).1 ≠ .ok a) ∧ effort (FW.bind m f fl e s).2.toWSt ≤ effort (W.bind w g e s.toWSt).2 ∧
        callsDue (FW.bind m f fl e s).2.toWSt ≤ callsDue (W.bind w g e s.toWSt).2 + 1)
    have h := h1.upto fl e s
    have hg := hgrow e s.toWSt
    rw [FW.bind]
    rcases hm : m fl e s with ⟨r, s'⟩
    rw [hm] at h
    dsimp only at h
    rcases h with ⟨he, ht⟩ | ⟨hne, h3, h4⟩
    · rw [W.bind]
      rcases hw : w e s.toWSt with ⟨r', t'⟩
      rw [hw] at he ht
      dsimp only at he ht
      subst he ht
      cases r with
      | ok a => exact (h2 a).upto fl e s'
      | err k => exact .inl ⟨rfl, rfl⟩
      | panic => exact .inl ⟨rfl, rfl⟩
      | fuel => exact .inl ⟨rfl, rfl⟩
    · cases r with
      | ok a => exact absurd rfl (hne a)
      | err k => exact .inr ⟨fun _ h => by (cases h), by dsimp only; omega, by dsimp only; omega⟩
      | panic => exact .inr ⟨fun _ h => by (cases h), by dsimp only; omega, by dsimp only; omega⟩
      | fuel => exact .inr ⟨fun _ h => by (cases h), by dsimp only; omega, by dsimp only; omega⟩
  · have := h1.grows e s
    have := hgrow e s
    exact ⟨by show _ ≤ effort (W.bind w g e s).2; omega, by show _ ≤ callsDue (W.bind w g e s).2; omega⟩

theorem Less.pure {α} (a : α) : Less (Pure.pure a : FW α) (Pure.pure a) :=
  ⟨fun _ _ _ => .inl ⟨rfl, rfl⟩, fun _ _ => ⟨Nat.le_refl _, Nat.le_refl _⟩⟩

theorem Less.E {α} (m : E α) : Less m.fw m.w := ⟨fun _ _ _ => .inl ⟨rfl, rfl⟩, fun _ _ => ⟨Nat.le_refl _, Nat.le_refl _⟩⟩

theorem Less.flushBuf : Less fFlushBuf wFlushBuf := by
  refine ⟨fun fl e s => ?_, fun e s => ?_⟩
  · unfold fFlushBuf wFlushBuf
    split
    · rename_i h
      exact .inl ⟨rfl, (flushBuf_nil (List.isEmpty_iff.mp h)).symm⟩
    · rename_i hne
      split
      · exact .inl ⟨rfl, rfl⟩
      · rename_i n _
        refine .inr ⟨fun _ h => by (cases h), ?_, ?_⟩
        · obtain ⟨h1, -, -, -⟩ := sysWrite_effort s.toWSt (s.buf.take n)
          obtain ⟨h2, -, -⟩ := flushBuf_effort s.toWSt
          rw [h2]
          unfold effort at h1 ⊢
          rw [(sysWrite_effort s.toWSt (s.buf.take n)).2.2.2] at h1
          have : (s.buf.take n).length + (s.buf.drop n).length = s.buf.length := by
            rw [List.length_take, List.length_drop]; omega
          dsimp only
          omega
        · obtain ⟨-, -, h1, h3⟩ := sysWrite_effort s.toWSt (s.buf.take n)
          obtain ⟨-, h2, -⟩ := flushBuf_effort s.toWSt
          rw [h2]
          have hb : s.buf ≠ [] := fun h => hne (by rw [h]; rfl)
          unfold callsDue at h1 ⊢
          rw [h3, if_neg hb] at h1
          dsimp only
          rw [if_neg hb]
          split <;> omega
  · obtain ⟨h1, h2, -⟩ := flushBuf_effort s
    exact ⟨Nat.le_of_eq h1.symm, Nat.le_of_eq h2.symm⟩

theorem Less.sysWrite (b : Bytes) : Less (fSysWrite b) (fun _ s => (.ok (), s.sysWrite b)) := by
  refine ⟨fun fl e s => ?_, fun e s => ?_⟩
  · unfold fSysWrite
    split
    · rename_i h
      refine .inl ⟨rfl, ?_⟩
      simp only [WSt.sysWrite, h, if_true]
    · split
      · exact .inl ⟨rfl, rfl⟩
      · rename_i n _
        obtain ⟨h1, h2, h3, h4⟩ := sysWrite_effort s.toWSt b
        obtain ⟨k1, k2, k3, k4⟩ := sysWrite_effort s.toWSt (b.take n)
        have := List.length_take_le n b
        exact .inr ⟨fun _ h => by (cases h), by dsimp only; rw [List.length_take] at k1; omega, by dsimp only; omega⟩
  · obtain ⟨h1, h2, h3, h4⟩ := sysWrite_effort s b
    exact ⟨by dsimp only; omega, h2⟩

theorem Less.congr {α} {m m' : FW α} {w w' : W α} (h : Less m w) (hm : ∀ fl e s, m fl e s = m' fl e s) (hw : ∀ e s, w e s = w' e s) :
    Less m' w' := by
  have e1 : m = m' := by funext fl e s; exact hm fl e s
  have e2 : w = w' := by funext e s; exact hw e s
  rw [← e1, ← e2]
  exact h

theorem Less.pointwise {α} {m : FW α} {w : W α}
    (h : ∀ e s, ∃ m' w', Less m' w' ∧ (∀ fl t, m fl e ⟨s, t⟩ = m' fl e ⟨s, t⟩) ∧ w e s = w' e s) : Less m w := by
  refine ⟨fun fl e s => ?_, fun e s => ?_⟩
  · obtain ⟨m', w', h1, h2, h3⟩ := h e s.toWSt
    have := h2 fl s.tick
    rw [h3, show m fl e s = m' fl e s from this]
    exact h1.upto fl e s
  · obtain ⟨m', w', h1, h2, h3⟩ := h e s
    rw [h3]
    exact h1.grows e s

/-- Changes of the state that leave what has been written and the buffer. -/
theorem Less.quiet {α} (r : Out α) (g : WSt → WSt) (h : ∀ s, (g s).trace = s.trace ∧ (g s).buf = s.buf) :
    Less (fun _ _ s => (r, { toWSt := g s.toWSt, tick := s.tick })) (fun _ s => (r, g s)) :=
  ⟨fun _ _ _ => .inl ⟨rfl, rfl⟩, fun _ s => by
    show effort s ≤ effort (g s) ∧ callsDue s ≤ callsDue (g s)
    unfold effort callsDue
    rw [(h s).1, (h s).2]
    exact ⟨Nat.le_refl _, Nat.le_refl _⟩⟩

theorem push_effort (s : WSt) (b : Bytes) : effort s ≤ effort { s with buf := s.buf ++ b } ∧ callsDue s ≤ callsDue { s with buf := s.buf ++ b } := by
  constructor
  · simp only [effort, List.length_append]; omega
  · unfold callsDue
    dsimp only
    by_cases h : s.buf = []
    · rw [if_pos h]; omega
    · rw [if_neg h, if_neg (by simp [h])]; omega

theorem Less.writeAll (b : Bytes) : Less (fWriteAll b) (wWriteAll b) := by
  have hp : Less (fun _ _ s => (.ok (), { s with buf := s.buf ++ b })) (fun _ s => (.ok (), { s with buf := s.buf ++ b })) :=
    ⟨fun _ _ _ => .inl ⟨rfl, rfl⟩, fun _ s => push_effort s b⟩
  have hd : Less (fWriteDirect b) (fun e s => if b.length ≥ e.cap then (.ok (), s.sysWrite b) else (.ok (), { s with buf := s.buf ++ b })) := by
    refine .pointwise fun e s => ?_
    by_cases h : b.length ≥ e.cap
    · exact ⟨_, _, Less.sysWrite b, fun fl t => if_pos h, if_pos h⟩
    · exact ⟨_, _, hp, fun fl t => if_neg h, if_neg h⟩
  have hb := Less.bind Less.flushBuf fun _ => hd
  refine ⟨fun fl e s => ?_, fun e s => ?_⟩
  · unfold fWriteAll wWriteAll
    by_cases h1 : b.length < e.cap - s.buf.length
    · rw [if_pos h1, if_pos h1]
      exact .inl ⟨rfl, rfl⟩
    · rw [if_neg h1, if_neg h1]
      by_cases h3 : b.length > e.cap - s.buf.length
      · simp only [if_pos h3]
        exact hb.upto fl e s
      · simp only [if_neg h3]
        exact hd.upto fl e s
  · unfold wWriteAll
    by_cases h1 : b.length < e.cap - s.buf.length
    · rw [if_pos h1]
      exact push_effort s b
    · rw [if_neg h1]
      by_cases h3 : b.length > e.cap - s.buf.length
      · simp only [if_pos h3]
        exact hb.grows e s
      · simp only [if_neg h3]
        exact hd.grows e s

theorem Less.flush : Less fFlush wFlush := Less.flushBuf

theorem Less.seekStart (n : Nat) : Less (fSeekStart n) (wSeekStart n) := by
  refine (Less.bind (g := fun _ e s => if n ≤ e.maxPos then (.ok (), { s with cur := n }) else (.err .io, s)) Less.flushBuf
    fun _ => .pointwise fun e s => ?_).congr (fun _ _ _ => rfl) fun e s => rfl
  by_cases h : n ≤ e.maxPos
  · exact ⟨_, _, .quiet (.ok ()) (fun s => { s with cur := n }) fun _ => ⟨rfl, rfl⟩, fun fl t => if_pos h, if_pos h⟩
  · exact ⟨_, _, .quiet (.err .io) (fun s => s) fun _ => ⟨rfl, rfl⟩, fun fl t => if_neg h, if_neg h⟩

theorem Less.seekCur (n : Nat) : Less (fSeekCur n) (wSeekCur n) := by
  refine (Less.bind (g := fun _ e s => if s.cur + n ≤ e.maxPos then (.ok (), { s with cur := s.cur + n }) else (.err .io, s)) Less.flushBuf
    fun _ => .pointwise fun e s => ?_).congr (fun _ _ _ => rfl) fun e s => rfl
  by_cases h : s.cur + n ≤ e.maxPos
  · exact ⟨_, _, .quiet (.ok ()) (fun s => { s with cur := s.cur + n }) fun _ => ⟨rfl, rfl⟩, fun fl t => if_pos h, if_pos h⟩
  · exact ⟨_, _, .quiet (.err .io) (fun s => s) fun _ => ⟨rfl, rfl⟩, fun fl t => if_neg h, if_neg h⟩

theorem setLen_effort (n : Nat) : Grows (wSetLen n) := by
  intro e s
  unfold wSetLen
  split
  · refine ⟨?_, ?_⟩
    · simp only [effort, written_snoc]; omega
    · simp only [callsDue, List.length_append, List.length_singleton]; omega
  · exact ⟨Nat.le_refl _, Nat.le_refl _⟩

theorem Less.setLen (n : Nat) : Less (fSetLen n) (wSetLen n) := by
  refine ⟨fun fl e s => ?_, setLen_effort n⟩
  have hg := setLen_effort n e s.toWSt
  unfold fSetLen
  split
  · rename_i hn
    split
    · unfold wSetLen
      rw [if_pos hn]
      exact .inl ⟨rfl, rfl⟩
    · exact .inr ⟨fun _ h => by (cases h), hg.1, by dsimp only; omega⟩
  · rename_i hn
    unfold wSetLen
    rw [if_neg hn]
    exact .inl ⟨rfl, rfl⟩

theorem read_still {α} (pos : Nat) (p : P α) (e : Env) (s : WSt) : (wRead pos p e s).2 = { s with cur := e.rcur s.trace.length } := by
  unfold wRead
  dsimp only
  split <;> rfl

theorem Less.read {α} (pos : Nat) (p : P α) : Less (fRead pos p) (wRead pos p) := by
  refine ⟨fun fl e s => ?_, fun e s => ?_⟩
  · unfold fRead
    dsimp only
    split
    · unfold wRead
      dsimp only
      split <;> rename_i h <;> rw [h] <;> exact .inl ⟨rfl, rfl⟩
    · rw [read_still]
      exact .inr ⟨fun _ h => by (cases h), Nat.le_refl _, Nat.le_succ _⟩
  · rw [read_still]
    exact ⟨Nat.le_refl _, Nat.le_refl _⟩

theorem Less.all {α} {f : α → FW Unit} {g : α → W Unit} (h : ∀ a, Less (f a) (g a)) : ∀ l, Less (fAll f l) (wAll g l)
  | [] => .pure ()
  | x :: xs => .bind (h x) fun _ => Less.all h xs

theorem Less.emit (m : Wr Unit) : Less (fEmit m) (wEmit m) := by
  refine ⟨fun fl e s => ?_, fun e s => ?_⟩
  · unfold fEmit wEmit
    have h := (Less.all Less.writeAll (m e).1).upto fl e s
    dsimp only
    rcases hm : fAll fWriteAll (m e).1 fl e s with ⟨r, s'⟩
    rcases hw : wAll wWriteAll (m e).1 e s.toWSt with ⟨r', t'⟩
    rw [hm, hw] at h
    dsimp only at h
    rcases h with ⟨he, ht⟩ | ⟨hne, h1, h2⟩
    · subst he ht
      cases r <;> exact .inl ⟨rfl, rfl⟩
    · cases r with
      | ok a => exact absurd rfl (hne a)
      | err k => cases r' <;> exact .inr ⟨fun _ h => by (cases h), h1, h2⟩
      | panic => cases r' <;> exact .inr ⟨fun _ h => by (cases h), h1, h2⟩
      | fuel => cases r' <;> exact .inr ⟨fun _ h => by (cases h), h1, h2⟩
  · unfold wEmit
    have h := (Less.all Less.writeAll (m e).1).grows e s
    dsimp only
    rcases hw : wAll wWriteAll (m e).1 e s with ⟨r', t'⟩
    rw [hw] at h
    cases r' <;> exact h

theorem Less.opt {α} {f : α → FW Unit} {g : α → W Unit} (h : ∀ a, Less (f a) (g a)) : ∀ x, Less (fOpt f x) (wOpt g x)
  | none => .pure ()
  | some a => h a

theorem Less.patchTable (w : Nat) (d : Int) (a : AtomBounds) : Less (fPatchTable w d a) (patchTable w d a) :=
  .bind (.E _) fun _ => .bind (.read _ _) fun _ => .bind (.seekStart _) fun _ =>
    .bind (.all (fun _ => .bind (.E _) fun _ => .writeAll _) _) fun _ => .flush

theorem Less.patchStbl (d : Int) (s : StblBounds) : Less (fPatchStbl d s) (patchStbl d s) :=
  .bind (.opt (.patchTable 4 d) _) fun _ => .opt (.patchTable 8 d) _

theorem Less.patchHead (d : Int) (a : AtomBounds) : Less (fPatchHead d a) (patchHead d a) := by
  refine .bind (.E _) fun _ => .bind (.seekStart _) fun _ => ?_
  split
  · exact .bind (.writeAll _) fun _ => .bind (.seekCur _) fun _ => .writeAll _
  · exact .writeAll _

theorem Less.writePhase (mp : Nat) (moov : MoovBounds) (p : Plan) (ol : Nat) (moved : Bytes) (atoms : List AtomData) :
    Less (fWritePhase mp moov p ol moved atoms) (writePhase mp moov p ol moved atoms) := by
  have hrest := Less.bind (Less.all (Less.patchHead p.lenDiff) p.updateAtoms.reverse) fun _ =>
    Less.bind (Less.E (addI (asI64 ol) p.lenDiff)) fun n => Less.bind (Less.setLen (asU64 n)) fun _ =>
    Less.bind (Less.seekStart p.newAtomsStart) fun _ => Less.bind (Less.emit (newAtomsWr p atoms)) fun _ =>
    Less.bind (Less.E (addI (asI64 p.movedDataStart) p.lenDiff)) fun m => Less.bind (Less.seekStart (asU64 m)) fun _ =>
    Less.bind (Less.writeAll moved) fun _ => Less.flush
  unfold fWritePhase Mp4.writePhase
  by_cases h : mp > moov.bounds.pos
  · rw [if_pos h, if_pos h]
    exact .bind (.all (.patchStbl _) _) fun _ => hrest
  · rw [if_neg h, if_neg h]
    exact hrest

theorem fDrop_effort (fl : Faults) (e : Env) (s : FSt) :
    written (fDrop fl e s).trace ≤ effort s.toWSt ∧ (fDrop fl e s).trace.length ≤ callsDue s.toWSt := by
  have key : ∀ t : WSt, written t.trace ≤ effort t ∧ t.trace.length ≤ callsDue t := fun t =>
    ⟨Nat.le_add_right _ _, Nat.le_add_right _ _⟩
  unfold fDrop fFlushBuf
  split
  · exact key _
  · rename_i hne
    have hb : s.buf ≠ [] := fun h => hne (by rw [h]; rfl)
    split
    · obtain ⟨h1, h2, -⟩ := flushBuf_effort s.toWSt
      have := key s.toWSt.flushBuf
      exact ⟨by dsimp only; omega, by dsimp only; omega⟩
    · rename_i n _
      obtain ⟨h1, -, h3, h4⟩ := sysWrite_effort s.toWSt (s.buf.take n)
      unfold effort at h1 ⊢
      unfold callsDue at h3 ⊢
      rw [h4] at h1
      rw [h4, if_neg hb] at h3
      rw [if_neg hb]
      have : (s.buf.take n).length ≤ s.buf.length := by rw [List.length_take]; omega
      exact ⟨by dsimp only; omega, by dsimp only; omega⟩

/-- A save in which calls fail writes at most as many bytes as the same save without failures, with at most one more call. -/
theorem writeTagF_cost (fl : Faults) (e : Env) (F : Bytes) (pos : Nat) (atoms : List AtomData) :
    written (writeTagF fl e F pos atoms).2.trace ≤ written (writeTagTo e F pos atoms).2.trace ∧
    (writeTagF fl e F pos atoms).2.trace.length ≤ (writeTagTo e F pos atoms).2.trace.length + 1 := by
  have h0 : written ([] : List Op) = 0 := rfl
  unfold writeTagF writeTagTo
  dsimp only
  by_cases hs : fl.search = true
  · rw [hs]
    simp only [if_true]
    exact ⟨by rw [h0]; omega, Nat.zero_le _⟩
  rw [if_neg hs]
  cases preparePhase atoms e F pos with
  | ok r =>
    obtain ⟨⟨mp, mv, p, ol, b⟩, q⟩ := r
    dsimp only
    have h := (Less.writePhase mp mv p ol b atoms).upto fl e { file := F, cur := e.rcur 0 }
    obtain ⟨h1, h2⟩ := fDrop_effort fl e (fWritePhase mp mv p ol b atoms fl e { file := F, cur := e.rcur 0 }).2
    obtain ⟨h3, h4, h5⟩ := flushBuf_effort (writePhase mp mv p ol b atoms e { file := F, cur := e.rcur 0 }).2
    have h6 : effort (writePhase mp mv p ol b atoms e { file := F, cur := e.rcur 0 }).2.flushBuf =
        written (writePhase mp mv p ol b atoms e { file := F, cur := e.rcur 0 }).2.flushBuf.trace := by
      unfold effort; rw [h5]; rfl
    have h7 : callsDue (writePhase mp mv p ol b atoms e { file := F, cur := e.rcur 0 }).2.flushBuf =
        (writePhase mp mv p ol b atoms e { file := F, cur := e.rcur 0 }).2.flushBuf.trace.length := by
      unfold callsDue; rw [h5]; rfl
    rcases h with ⟨-, h8⟩ | ⟨-, h8, h9⟩
    · rw [h8] at h1 h2
      dsimp only at h1 h2
      omega
    · dsimp only at h8 h9
      omega
  | err k => exact ⟨Nat.le_refl _, Nat.le_succ _⟩
  | panic => exact ⟨Nat.le_refl _, Nat.le_succ _⟩
  | fuel => exact ⟨Nat.le_refl _, Nat.le_succ _⟩

end Mp4
