import Verif.Model.Cause
import Verif.Props.Exact
import Verif.Props.Fault
import Verif.Props.Reader
/-
C108: the error of std behind an error. C65, continued: the types of identifiers.
-/
namespace Mp4.Props
open Mp4 Spec

/-- The full claim: whatever error a reader causes, the error of std in it is its `source`, as the documentation of
`std::error::Error` asks for. -/
def SourceFound : Prop := ∀ (c : Sched) (e : Env) (F : Bytes) (pos : Nat) (k : ErrKind), (readTagVia c e F pos).1 = .err k → k.source = k.inner

/-- **C108 is false**: `source` is not implemented, so the error of the reader cannot be found in the usual way. -/
theorem C108_refuted : ¬ SourceFound := by
  intro h
  have := h (fun _ => .err) env0 [] 0 .io (by decide +kernel)
  exact absurd this (by decide)

/-- A file type with an invalid byte. -/
def badText : Bytes := [0, 0, 0, 9] ++ (cc 'f' 't' 'y' 'p').bytes ++ [255]

/-- **C108**: also with the deprecated `cause` in place of `source` the claim is false: it does not give the errors of decoding a
text. -/
theorem C108_text : ∃ (c : Sched) (e : Env) (F : Bytes) (k : ErrKind), (readTagVia c e F 0).1 = .err k ∧ (readTagVia c e F 0).2.hit = false ∧
    k.inner = some .utf8 ∧ k.cause = none :=
  ⟨fun _ => .give 100, env0, badText, .utf8StringDecoding, by decide +kernel, by decide +kernel, rfl, rfl⟩

/-- **C108 (partial)**: if a call to the reader fails, `cause` of the error that is returned is an I/O error. Missing: `source`, and the
errors of decoding a text. -/
theorem C108_read_partial (c : Sched) (e : Env) (F : Bytes) (pos j : Nat) (hj : j < (readTagVia c e F pos).2.tick) (hc : c j = .err) :
    ∃ k, (readTagVia c e F pos).1 = .err k ∧ k.cause = some .io ∧ k.cause = k.inner :=
  ⟨.io, C72_reported c e F pos j hj hc, rfl, rfl⟩

/-- **C108 (partial)**: if a call fails while a tag is saved, `cause` of the error that is returned is an I/O error, or the save would
have failed with the same error without this failure. Missing: `source`. -/
theorem C108_save_partial (fl : Faults) (e : Env) (F : Bytes) (pos j n : Nat) (atoms : List AtomData)
    (hj : j < (writeTagF fl e F pos atoms).2.tick) (hn : fl.call j = some n) :
    (∃ k, (writeTagF fl e F pos atoms).1 = .err k ∧ k.cause = some .io ∧ k.cause = k.inner) ∨
      ((writeTagTo e F pos atoms).1 ≠ .ok () ∧ (writeTagF fl e F pos atoms).1 = (writeTagTo e F pos atoms).1) := by
  rcases C59_failed fl e F pos j n atoms hj hn with h | h
  · exact .inl ⟨.io, h, rfl, rfl⟩
  · exact .inr h

/-- The second call fails. -/
example : ∃ k, (readTagVia (fun n => if n = 1 then .err else .give 100) env0 badText 0).1 = .err k ∧ k.cause = some .io ∧ k.cause = k.inner :=
  C108_read_partial _ _ _ _ 1 (by decide +kernel) rfl

/-- The last write fails. -/
example : (∃ k, (writeTagF (failAt 10 1) env0 fileW.ser 0 atomsW).1 = .err k ∧ k.cause = some .io ∧ k.cause = k.inner) ∨
    ((writeTagTo env0 fileW.ser 0 atomsW).1 ≠ .ok () ∧ (writeTagF (failAt 10 1) env0 fileW.ser 0 atomsW).1 = (writeTagTo env0 fileW.ser 0 atomsW).1) :=
  C108_save_partial _ _ _ _ 10 1 _ (by decide +kernel) (by decide +kernel)

/-! ### C65 -/

/-- **C65**: identifiers of all types that denote the same entry are printed alike, and print as the identifier in the tag does. -/
theorem C65_types (i j : Ident) (h : i.toData = j.toData) : i.display = j.display ∧ i.display = i.toData.display := by
  have key : ∀ i : Ident, i.display = i.toData.display := fun i => by cases i <;> rfl
  exact ⟨by rw [key, key, h], key i⟩

/-- **C65**: an identifier that finds the entry of `d` is printed as `d`. -/
theorem C65_matches (i : Ident) (d : DataIdent) (h : i.matches d = true) : i.display = d.display := by
  have : i.toData = d := by
    cases i <;> cases d <;> simp only [Ident.matches, Bool.false_eq_true, beq_iff_eq, Bool.and_eq_true] at h
    · rw [h]; rfl
    · rename_i f m n
      obtain ⟨h1, h2⟩ := h
      rw [← h1, ← h2]; rfl
    · exact h
    · exact h
  exact ((C65_types i (.data d) this).1)

example : (Ident.freeform ISRC).display = "----:com.apple.iTunes:ISRC".toList ∧
    (Ident.freeform ISRC).matches (.freeform "com.apple.iTunes".toList "ISRC".toList) = true := by decide

end Mp4.Props
