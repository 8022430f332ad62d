import Verif.Props.WriteMore
import Verif.Proof.Fault
/-
C59–C61: I/O errors while writing.
-/
namespace Mp4.Props
open Mp4 Spec

/-! ### C59 -/

/-- **C59.** If writing succeeds, then no I/O call has failed, and outcome and file are those of writing without failures:
no error of any call is swallowed, not even those that surface when the buffer is flushed. -/
theorem C59_ok (fl : Faults) (e : Env) (F : Bytes) (pos : Nat) (atoms : List AtomData)
    (h : (writeTagF fl e F pos atoms).1 = .ok ()) :
    fl.search = false ∧ (∀ k, k < (writeTagF fl e F pos atoms).2.tick → fl.call k = none) ∧
      writeTagTo e F pos atoms = (.ok (), (writeTagF fl e F pos atoms).2.toWSt) := by
  rcases writeTagF_sim fl e F pos atoms with ⟨h1, h2, h3, h4⟩ | ⟨_, h1, _⟩ | ⟨_, h1⟩ | ⟨_, h1, _⟩
  · exact ⟨h1, h2, by rw [h4, ← h, h3]⟩
  · rw [h] at h1; cases h1
  · rw [h] at h1; cases h1
  · exact absurd h h1

/-- **C59.** If a call fails, the outcome is an I/O error, unless writing has already failed or panicked for another reason
(and the failing call is that of the drop of the buffer). -/
theorem C59_failed (fl : Faults) (e : Env) (F : Bytes) (pos k n : Nat) (atoms : List AtomData)
    (hk : k < (writeTagF fl e F pos atoms).2.tick) (hn : fl.call k = some n) :
    (writeTagF fl e F pos atoms).1 = .err .io ∨
      ((writeTagTo e F pos atoms).1 ≠ .ok () ∧ (writeTagF fl e F pos atoms).1 = (writeTagTo e F pos atoms).1) := by
  rcases writeTagF_sim fl e F pos atoms with ⟨_, h2, _⟩ | ⟨_, h1, _⟩ | ⟨_, h1⟩ | ⟨_, h1, h2⟩
  · rw [h2 k hk] at hn; cases hn
  · exact .inl h1
  · exact .inl h1
  · exact .inr ⟨h2 ▸ h1, h2⟩

/-- **C59.** An error while the file is searched is reported and leaves the file alone. -/
theorem C59_search (fl : Faults) (e : Env) (F : Bytes) (pos : Nat) (atoms : List AtomData) (h : fl.search = true) :
    (writeTagF fl e F pos atoms).1 = .err .io ∧ (writeTagF fl e F pos atoms).2.file = F ∧ (writeTagF fl e F pos atoms).2.trace = [] := by
  unfold writeTagF
  simp [h]

/-- The schedule in which exactly the `k`-th call fails, after `n` bytes. -/
def failAt (k n : Nat) : Faults := ⟨fun i => if i = k then some n else none, false⟩

/-- Without errors `fileW` is written with 11 calls. If one of these fails, the outcome is an error. -/
example : (writeTagF Faults.none env0 fileW.ser 0 atomsW).1 = .ok () ∧
    (writeTagF Faults.none env0 fileW.ser 0 atomsW).2.tick = 11 ∧
    (writeTagF (failAt 10 1) env0 fileW.ser 0 atomsW).1 = .err .io ∧
    (writeTagF (failAt 10 1) env0 fileW.ser 0 atomsW).2.tick = 12 ∧
    (writeTagF (failAt 11 1) env0 fileW.ser 0 atomsW).1 = .ok () := by decide +kernel

/-- An error of the search. -/
example : (writeTagF ⟨fun k => if k = 0 then none else some 0, true⟩ env0 fileW.ser 0 atomsW).1 = .err .io ∧
    (writeTagF ⟨fun k => if k = 0 then none else some 0, true⟩ env0 fileW.ser 0 atomsW).2.file = fileW.ser := by decide +kernel

/-! ### C60 -/

/-- **C60.** Whatever I/O calls fail, after however many bytes, and whatever the outcome: nothing in front of `moov` changes. -/
theorem C60_front (fl : Faults) (e : Env) (X : Bytes) (f : File) (atoms : List AtomData) (h : Writable e X f atoms) :
    (writeTagF fl e (X ++ f.ser) X.length atoms).2.file.take (X ++ f.ftypBox.ser ++ serL id f.pre).length
      = X ++ f.ftypBox.ser ++ serL id f.pre := by
  have hs := writeTagF_safe fl h.fit h.wf h.store h.old h.new h.tables
  have hle : (X ++ f.ftypBox.ser ++ serL id f.pre).length ≤ (X ++ f.ser).length := by
    rw [front_eq f]; simp only [List.length_append]; omega
  rw [← hs.replay, (foldl_take (by rw [front_length]; exact hs.low) hle).1, front_eq, List.take_left]

/-- **C60.** In particular media data in front of `moov` survives every I/O error at its place. -/
theorem C60_media (fl : Faults) (e : Env) (X : Bytes) (f : File) (atoms : List AtomData) (h : Writable e X f atoms) (hb : ¬ f.MediaBehind) :
    ∀ o n, f.InMdat X.length o n → bytesAt (writeTagF fl e (X ++ f.ser) X.length atoms).2.file o n = bytesAt (X ++ f.ser) o n := by
  intro o n hn
  have hG := C60_front fl e X f atoms h
  generalize (writeTagF fl e (X ++ f.ser) X.length atoms).2.file = G at hG
  rcases inMdat_bounds hn with ⟨_, hle⟩ | ⟨hb', _⟩
  · have hp := front_length f X
    have key : ∀ H : Bytes, bytesAt H o n = bytesAt (H.take (f.moovPos X.length)) o n := by
      intro H
      rw [bytesAt, bytesAt, List.drop_take, List.take_take, Nat.min_eq_left (by omega)]
    rw [key G, key (X ++ f.ser), ← hp, hG, front_eq f, List.take_left]
  · exact absurd hb' hb

/-- An error of the last call leaves a changed file, with the same front. -/
example : (writeTagF (failAt 5 1) env0 fileFront.ser 0 atomsW).1 = .err .io ∧
    (writeTagF (failAt 5 1) env0 fileFront.ser 0 atomsW).2.file ≠ fileFront.ser ∧ Writable env0 [] fileFront atomsW :=
  ⟨by decide +kernel, by decide +kernel, fileFront_writable⟩

/-! ### C61 -/

theorem dumpChunks_prefix (fl : Faults) (last : Out Unit) : ∀ (cs : List Bytes) (k : Nat),
    (dumpChunks fl last k cs).1 <+: cs.flatten ∧
    ((dumpChunks fl last k cs).2 = .ok () → (dumpChunks fl last k cs).1 = cs.flatten ∧ last = .ok () ∧ ∀ i, i < cs.length → fl.call (k + i) = none) ∧
    ((∀ i, i < cs.length → fl.call (k + i) = none) → dumpChunks fl last k cs = (cs.flatten, last)) ∧
    ((∃ i, i < cs.length ∧ ∃ n, fl.call (k + i) = some n) → (dumpChunks fl last k cs).2 = .err .io) := by
  intro cs
  induction cs with
  | nil => exact fun k => ⟨List.prefix_refl _, fun h => ⟨rfl, h, fun _ hi => absurd hi (Nat.not_lt_zero _)⟩, fun _ => rfl, fun ⟨_, hi, _⟩ => absurd hi (Nat.not_lt_zero _)⟩
  | cons c cs ih =>
    intro k
    obtain ⟨i1, i2, i3, i4⟩ := ih (k + 1)
    unfold dumpChunks
    split
    · rename_i hc
      dsimp only
      have hall : ∀ P : Nat → Prop, (P k ∧ ∀ i, i < cs.length → P (k + 1 + i)) ↔ ∀ i, i < (c :: cs).length → P (k + i) := by
        intro P
        constructor
        · rintro ⟨h0, h⟩ i hi
          cases i with
          | zero => exact h0
          | succ j => rw [show k + (j + 1) = k + 1 + j by omega]; exact h j (by simpa using hi)
        · intro h
          exact ⟨h 0 (by simp), fun i hi => by rw [show k + 1 + i = k + (i + 1) by omega]; exact h (i + 1) (by simpa using hi)⟩
      refine ⟨?_, fun h => ?_, fun h => ?_, ?_⟩
      · rw [List.flatten_cons]
        exact (List.prefix_append_right_inj c).mpr i1
      · obtain ⟨j1, j2, j3⟩ := i2 h
        exact ⟨by rw [j1, List.flatten_cons], j2, (hall fun i => fl.call i = none).mp ⟨hc, j3⟩⟩
      · rw [i3 ((hall fun i => fl.call i = none).mpr h).2, List.flatten_cons]
      · rintro ⟨i, hi, n, hn⟩
        cases i with
        | zero => rw [Nat.add_zero, hc] at hn; cases hn
        | succ j => exact i4 ⟨j, by simpa using hi, n, by rw [show k + 1 + j = k + (j + 1) by omega]; exact hn⟩
    · rename_i n hc
      refine ⟨?_, (fun h => by cases h), fun h => ?_, fun _ => rfl⟩
      · rw [List.flatten_cons]
        exact (List.take_prefix n c).trans (List.prefix_append _ _)
      · have := h 0 (by simp)
        rw [Nat.add_zero, hc] at this
        cases this

/-- **C61.** Whatever a failing writer has received is a prefix of the dump. If dumping succeeds it has received everything, and
no call has failed; if one of the calls fails, the outcome is an I/O error. -/
theorem C61_dump (fl : Faults) (e : Env) (t : Tag) :
    (dumpTagF fl e t).1 <+: (dumpTag e t).1 ∧
    ((dumpTagF fl e t).2 = .ok () → dumpTag e t = ((dumpTagF fl e t).1, .ok ())) ∧
    ((dumpTagF fl e t).2 = (dumpTag e t).2 ∧ (dumpTagF fl e t).1 = (dumpTag e t).1 ∨ (dumpTagF fl e t).2 = .err .io) := by
  show (dumpChunks fl (dumpWr t.atoms e).2 0 (dumpWr t.atoms e).1).1 <+: (dumpWr t.atoms e).1.flatten ∧
    ((dumpChunks fl (dumpWr t.atoms e).2 0 (dumpWr t.atoms e).1).2 = .ok () →
      ((dumpWr t.atoms e).1.flatten, (dumpWr t.atoms e).2) = ((dumpChunks fl (dumpWr t.atoms e).2 0 (dumpWr t.atoms e).1).1, .ok ())) ∧
    ((dumpChunks fl (dumpWr t.atoms e).2 0 (dumpWr t.atoms e).1).2 = (dumpWr t.atoms e).2 ∧
      (dumpChunks fl (dumpWr t.atoms e).2 0 (dumpWr t.atoms e).1).1 = (dumpWr t.atoms e).1.flatten ∨
      (dumpChunks fl (dumpWr t.atoms e).2 0 (dumpWr t.atoms e).1).2 = .err .io)
  generalize dumpWr t.atoms e = w
  obtain ⟨h1, h2, h3, h4⟩ := dumpChunks_prefix fl w.2 w.1 0
  refine ⟨h1, fun h => ?_, ?_⟩
  · obtain ⟨k1, k2, -⟩ := h2 h
    rw [← k1, k2]
  · by_cases hc : ∀ i, i < w.1.length → fl.call (0 + i) = none
    · refine .inl ⟨congrArg Prod.snd (h3 hc), congrArg Prod.fst (h3 hc)⟩
    · refine .inr (h4 ?_)
      apply Classical.byContradiction
      intro hn
      apply hc
      intro i hi
      cases hf : fl.call (0 + i) with
      | none => rfl
      | some n => exact absurd ⟨i, hi, n, hf⟩ hn

/-- **C61.** A writer that does not fail receives the dump. -/
theorem C61_none (e : Env) (t : Tag) : dumpTagF .none e t = dumpTag e t :=
  (dumpChunks_prefix .none (dumpWr t.atoms e).2 (dumpWr t.atoms e).1 0).2.2.1 fun _ _ => rfl

/-- A writer failing in the third call, after two bytes: it has received ten bytes of the dump. -/
example : (dumpTagF (failAt 2 2) env0 ⟨[], {}, atomsW⟩).1 = (dumpTag env0 ⟨[], {}, atomsW⟩).1.take 10 ∧
    (dumpTagF (failAt 2 2) env0 ⟨[], {}, atomsW⟩).2 = .err .io ∧ (dumpTag env0 ⟨[], {}, atomsW⟩).1.length > 100 := by decide +kernel

end Mp4.Props
