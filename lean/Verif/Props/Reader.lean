import Verif.Proof.Reader
import Verif.Props.Read
import Verif.Props.Write
/-
C72: reading from readers that return fewer bytes than asked for, are interrupted, or fail.
-/
namespace Mp4.Props
open Mp4 Spec

/-! ### C72 -/

/-- **C72.** Whatever the reader does in each call, whatever the content: the outcome is that of reading from memory, or an
error reported by the reader is returned as `ErrorKind::Io`, or the iterations of the model did not suffice for the
interruptions. -/
theorem C72_same (c : Sched) (e : Env) (F : Bytes) (pos : Nat) :
    (readTagVia c e F pos).1 = readTag e F pos ∨
    ((readTagVia c e F pos).2.hit = true ∧ (readTagVia c e F pos).1 = .err .io) ∨
    ((readTagVia c e F pos).1 = .fuel ∧ ¬ Enough c e F) := by
  rcases (RSim.readTag.run { pos := pos } rfl : RRes c e F _ _ _).2 with ⟨-, h⟩ | h | ⟨-, h⟩
  · left
    unfold readTagVia readTag
    dsimp only at h
    generalize readTagR c e F { pos := pos } = x at h
    generalize readTagP e F pos = o at h
    rcases o with ⟨a, q⟩ | _ | _ | _
    · exact h.1
    all_goals exact h
  · exact .inr (.inl h)
  · exact .inr (.inr h)

/-- **C72.** No reader makes a tag appear that is not in the content. -/
theorem C72_tag (c : Sched) (e : Env) (F : Bytes) (pos : Nat) (t : Tag) (h : (readTagVia c e F pos).1 = .ok t) :
    readTag e F pos = .ok t := by
  rcases C72_same c e F pos with h' | ⟨-, h'⟩ | ⟨h', -⟩
  · rw [← h', h]
  · rw [h] at h'; cases h'
  · rw [h] at h'; cases h'

/-- **C72.** No error is swallowed: if any call that was issued failed, the result is this error. -/
theorem C72_reported (c : Sched) (e : Env) (F : Bytes) (pos k : Nat) (hk : k < (readTagVia c e F pos).2.tick) (hc : c k = .err) :
    (readTagVia c e F pos).1 = .err .io := by
  obtain ⟨h1, h2⟩ := (RSim.readTag.run { pos := pos } rfl : RRes c e F _ _ _)
  have hh : (readTagVia c e F pos).2.hit = true := by
    cases hx : (readTagVia c e F pos).2.hit
    · exact absurd hc (h1.none hx k (Nat.zero_le _) hk)
    · rfl
  rcases h2 with ⟨h, -⟩ | ⟨-, h⟩ | ⟨h, -⟩
  · unfold readTagVia at hh; rw [h] at hh; cases hh
  · exact h
  · unfold readTagVia at hh; rw [h] at hh; cases hh

/-- **C72.** If no error reaches the crate, the result is that of reading from memory: `read` calls that return less than
asked for and interrupted ones do not matter. -/
theorem C72_quiet (c : Sched) (e : Env) (F : Bytes) (pos : Nat) (h : (readTagVia c e F pos).2.hit = false) (hE : Enough c e F) :
    (readTagVia c e F pos).1 = readTag e F pos := by
  rcases C72_same c e F pos with h' | ⟨h', -⟩ | ⟨-, h'⟩
  · exact h'
  · rw [h] at h'; cases h'
  · exact absurd hE h'

theorem NoFaults.enough {c : Sched} (h : NoFaults c) {e : Env} {F : Bytes} (hf : F.length < e.fuel) : Enough c e F := by
  refine ⟨0, fun n => ?_, by omega⟩
  induction n with
  | zero => exact Nat.le_refl _
  | succ n ih =>
    obtain ⟨m, hm⟩ := h n
    rw [intrCount_succ, if_neg (by rw [hm]; intro h; cases h)]
    omega

/-- **C72.** How the data is split over the `read` calls does not matter. -/
theorem C72_chunks (c : Sched) (e : Env) (F : Bytes) (pos : Nat) (h : NoFaults c) (hf : F.length < e.fuel) :
    (readTagVia c e F pos).1 = readTag e F pos := by
  rcases C72_same c e F pos with h' | ⟨h1, h2⟩ | ⟨-, h'⟩
  · exact h'
  · obtain ⟨k, -, -, hk⟩ := (RSim.readTag.run { pos := pos } rfl : RRes c e F _ _ _).1.some h1
    obtain ⟨n, hn⟩ := h k
    exact absurd hn (hk n)
  · exact absurd (NoFaults.enough h hf) h'

/-- **C72.** Saving: searching the file and reading the data to be moved through a reader that fails is what the model
`writeTagF` (C59, C60) calls a failing search: nothing is written. If no error reaches the crate, all is as without
errors. -/
theorem C72_write (c : Sched) (calls : Nat → Option Nat) (e : Env) (F : Bytes) (pos : Nat) (atoms : List AtomData) :
    ((writeTagVia c calls e F pos atoms).1, (writeTagVia c calls e F pos atoms).2.1) =
      writeTagF ⟨calls, (writeTagVia c calls e F pos atoms).2.2.hit⟩ e F pos atoms ∨
    ((writeTagVia c calls e F pos atoms).1 = .fuel ∧ (writeTagVia c calls e F pos atoms).2.1.file = F ∧ ¬ Enough c e F) := by
  have h := ((RSim.preparePhase atoms).run { pos := pos } rfl : RRes c e F _ _ _).2
  dsimp only at h
  unfold writeTagVia writeTagF
  generalize preparePhaseR atoms c e F { pos := pos } = x at h
  rcases h with ⟨hx, h⟩ | ⟨hx, h⟩ | ⟨hx, h, hE⟩
  · left
    rcases x with ⟨o, r⟩
    dsimp only at hx
    dsimp only
    rcases hp : preparePhase atoms e F pos with ⟨⟨a, b, c, d, f⟩, q⟩ | k | _ | _ <;> rw [hp] at h
    · obtain ⟨h, -⟩ := h
      dsimp only at h
      subst h
      dsimp only
      rw [hx]
      rfl
    all_goals
      change o = _ at h
      subst h
      dsimp only
      rw [hx]
      rfl
  · left
    rcases x with ⟨o, r⟩
    dsimp only at hx h
    subst h
    rw [hx]
    rfl
  · right
    rcases x with ⟨o, r⟩
    dsimp only at hx h
    subst h
    exact ⟨rfl, rfl, hE⟩

/-- **C72.** If the reader reports an error while the file is searched or the data to be moved is read, saving fails with
this error and the file is as before. -/
theorem C72_write_error (c : Sched) (calls : Nat → Option Nat) (e : Env) (F : Bytes) (pos : Nat) (atoms : List AtomData)
    (h : (writeTagVia c calls e F pos atoms).2.2.hit = true) :
    (writeTagVia c calls e F pos atoms).1 = .err .io ∧ (writeTagVia c calls e F pos atoms).2.1.file = F := by
  rcases C72_write c calls e F pos atoms with h' | ⟨h', h2, -⟩
  · rw [h] at h'
    have e1 : writeTagF ⟨calls, true⟩ e F pos atoms = (.err .io, { file := F, cur := e.rcur 0 }) := rfl
    rw [e1] at h'
    injection h' with h1 h2
    exact ⟨h1, by rw [h2]⟩
  · exfalso
    have h3 := ((RSim.preparePhase atoms).run { pos := pos } rfl : RRes c e F _ _ _).2
    unfold writeTagVia at h h'
    generalize preparePhaseR atoms c e F { pos := pos } = x at h h' h3
    rcases x with ⟨o, r⟩
    have hr : r.hit = true := by
      rcases o with ⟨a, b, p, l, m⟩ | _ | _ | _ <;> exact h
    rcases h3 with ⟨h3, -⟩ | ⟨-, h3⟩ | ⟨h3, -⟩
    · rw [hr] at h3; cases h3
    · dsimp only at h3
      subst h3
      cases h'
    · rw [hr] at h3; cases h3

/-- **C72.** The same for the chunk offset tables that are read while the file is written: a table is read as it is, or an
error is returned. -/
theorem C72_table (c : Sched) (e : Env) (F : Bytes) (pos w : Nat) (size : Size) (a : Nat × List Nat)
    (h : ((do seekStartR pos; parseTableR w size) c e F { pos := 0 }).1 = .ok a) :
    ∃ q, (do seekStart pos; parseTable w size) e F 0 = .ok (a, q) := by
  have hr : RSim c e F (do seekStartR pos; parseTableR w size) (do seekStart pos; parseTable w size) :=
    RSim.bind (RSim.seekStart _) fun _ => RSim.parseTable _ _
  rcases (hr.run { pos := 0 } rfl).2 with ⟨-, h'⟩ | ⟨-, h'⟩ | ⟨-, h', -⟩
  · dsimp only at h'
    generalize (do seekStart pos; parseTable w size : P _) e F 0 = o at h'
    rcases o with ⟨b, q⟩ | _ | _ | _
    · have := h'.1
      rw [h] at this
      cases this
      exact ⟨q, rfl⟩
    all_goals
      change _ = _ at h'
      rw [h] at h'
      cases h'
  · rw [h] at h'; cases h'
  · rw [h] at h'; cases h'

/-- One byte per call. -/
example : (readTagVia (fun _ => .give 0) env0 fileEx.ser 0).1 = .ok tagEx := by
  rw [C72_chunks _ env0 fileEx.ser 0 (fun _ => ⟨0, rfl⟩) (by decide +kernel), fileEx_read]

/-- A reader that is interrupted in the first two calls, returns at most four bytes per call, and fails in call 40. -/
def schedEx (k : Nat) : Call := if k < 2 then .intr else if k = 40 then .err else .give 3

example : (readTagVia schedEx env0 fileEx.ser 0).1 = .err .io ∧ (readTagVia schedEx env0 fileEx.ser 0).2.tick = 41 ∧
    (readTagVia schedEx env0 fileEx.ser 0).2.hit = true := by decide +kernel

/-- The same without the failure. -/
def schedEx' (k : Nat) : Call := if k < 2 then .intr else .give 3

theorem schedEx'_enough : Enough schedEx' env0 fileEx.ser := by
  refine ⟨2, fun n => ?_, by decide +kernel⟩
  have : ∀ n, intrCount schedEx' n ≤ min n 2 := by
    intro n
    induction n with
    | zero => exact Nat.le_refl _
    | succ n ih =>
      rw [intrCount_succ]
      split
      · rename_i h
        have : n < 2 := by
          unfold schedEx' at h
          split at h
          · assumption
          · cases h
        omega
      · omega
  exact Nat.le_trans (this n) (Nat.min_le_right _ _)

example : (readTagVia schedEx' env0 fileEx.ser 0).1 = .ok tagEx := by
  rw [C72_quiet schedEx' env0 fileEx.ser 0 (by decide +kernel) schedEx'_enough, fileEx_read]

/-- Saving through a reader that fails. -/
example : (writeTagVia schedEx (fun _ => none) env0 fileW.ser 0 atomsW).1 = .err .io ∧
    (writeTagVia schedEx (fun _ => none) env0 fileW.ser 0 atomsW).2.1.file = fileW.ser :=
  C72_write_error _ _ _ _ _ _ (by decide +kernel)

/-- Saving through a reader that does not. -/
example : (writeTagVia schedEx' (fun _ => none) env0 fileW.ser 0 atomsW).1 = .ok () ∧
    (writeTagVia schedEx' (fun _ => none) env0 fileW.ser 0 atomsW).2.2.hit = false := by decide +kernel

/-- A table with one entry, two bytes per call. -/
example : ((do seekStartR 0; parseTableR 4 ⟨false, 20⟩) (fun _ => .give 1) env0 ([0, 0, 0, 0] ++ be32 1 ++ be32 507) { pos := 0 }).1 =
    .ok (8, [507]) := by decide +kernel

end Mp4.Props
