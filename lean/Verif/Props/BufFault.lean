import Verif.Proof.BufFault
import Verif.Props.BufSave
import Verif.Props.Cost
import Verif.Props.Fault
/-
Saving through a `BufReader` and a `BufWriter` when calls of the writer fail too: C96 with failures on both sides.
-/
namespace Mp4.Props
open Mp4 Spec

/-- **C96** (failures). Whatever the file does in each call of the reader, and whichever calls of the writer fail after however many bytes:
the save does what it does in Model/Fault.lean for some failing calls, among which are those of the writer that failed. Another call fails
there only if the reader reported an error (or the iterations of the model did not suffice for the interruptions). -/
theorem C96_faults (c : Sched) (cap : Nat) (fl : Faults) (e : Env) (F : Bytes) (pos : Nat) (atoms : List AtomData) (hx : Fits e F)
    (hp : pos < 2^63) :
    let x := writeTagFBuf c cap fl e F pos atoms
    let short := x.1 = .fuel ∧ ¬ Spec.Enough c e F
    ∃ fl' : Faults,
      let y := writeTagF fl' e F pos atoms
      y.2.file = x.2.f.file ∧ y.2.trace = x.2.f.trace ∧ (y.1 = x.1 ∨ (short ∧ y.1 = .err .io)) ∧
      (∀ k < x.2.f.tick, ∃ j < y.2.tick, fl'.call j = fl.call k) ∧
      (∀ j n, fl'.call j = some n → (∃ k, fl.call k = some n) ∨ x.2.b.hit = true ∨ short) ∧
      (fl'.search = true → x.2.f.trace = [] ∧ (x.2.b.hit = true ∨ short)) := by
  obtain ⟨fl', h1, h2, h3, h4, h5, -, -, h6⟩ := writeTagFBuf_run (c := c) (cap := cap) (fl := fl) hx hp atoms _ rfl
  refine ⟨fl', h1, h2, ?_, h5, h4, h6⟩
  rcases h3 with h3 | ⟨h3, h7, h8⟩
  · exact .inl h3
  · exact .inr ⟨⟨h3, h7⟩, h8⟩

/-- **C96** (failures). Success means that no call of reader or writer failed, and that everything was written. -/
theorem C96_faults_ok (c : Sched) (cap : Nat) (fl : Faults) (e : Env) (F : Bytes) (pos : Nat) (atoms : List AtomData) (hx : Fits e F)
    (hp : pos < 2^63) :
    let x := writeTagFBuf c cap fl e F pos atoms
    x.1 = .ok () →
      (∀ k < x.2.f.tick, fl.call k = none) ∧ (∀ k < x.2.b.tick, c k ≠ .err) ∧
      (writeTagTo e F pos atoms).1 = .ok () ∧ (writeTagTo e F pos atoms).2.file = x.2.f.file ∧
      (writeTagTo e F pos atoms).2.trace = x.2.f.trace := by
  intro x hok
  obtain ⟨fl', h1, h2, h3, h4, h5, h6, h7, h8⟩ := writeTagFBuf_run (c := c) (cap := cap) (fl := fl) hx hp atoms x rfl
  clear_value x
  have hy : (writeTagF fl' e F pos atoms).1 = .ok () := by
    rcases h3 with h3 | ⟨h3, -⟩
    · rw [h3, hok]
    · rw [hok] at h3; cases h3
  obtain ⟨h9, h10, h11⟩ := C59_ok fl' e F pos atoms hy
  have hh : x.2.b.hit = false := by
    cases hh : x.2.b.hit
    · rfl
    · rw [h7 hh] at hok; cases hok
  refine ⟨fun k hk => ?_, fun k hk => h6.none hh k (Nat.zero_le _) hk, by rw [h11], by rw [h11]; exact h1, by rw [h11]; exact h2⟩
  obtain ⟨j, hj, hj'⟩ := h5 k hk
  rw [← hj', h10 j hj]

/-- **C96** (failures). An error of the reader is reported. An error of the writer is reported too, unless saving has already failed for
another reason and the failing call is that of the drop of the buffer (or there were not enough iterations). -/
theorem C96_faults_reported (c : Sched) (cap : Nat) (fl : Faults) (e : Env) (F : Bytes) (pos : Nat) (atoms : List AtomData) (hx : Fits e F)
    (hp : pos < 2^63) :
    let x := writeTagFBuf c cap fl e F pos atoms
    ((∃ k < x.2.b.tick, c k = .err) → x.1 = .err .io) ∧
    (∀ k < x.2.f.tick, ∀ n, fl.call k = some n →
      x.1 = .err .io ∨ ((writeTagTo e F pos atoms).1 ≠ .ok () ∧ x.1 = (writeTagTo e F pos atoms).1) ∨ (x.1 = .fuel ∧ ¬ Spec.Enough c e F)) := by
  intro x
  obtain ⟨fl', h1, h2, h3, h4, h5, h6, h7, h8⟩ := writeTagFBuf_run (c := c) (cap := cap) (fl := fl) hx hp atoms x rfl
  clear_value x
  refine ⟨fun ⟨k, hk, hc⟩ => ?_, fun k hk n hn => ?_⟩
  · cases hh : x.2.b.hit
    · exact absurd hc (h6.none hh k (Nat.zero_le _) hk)
    · exact h7 hh
  · rcases h3 with h3 | ⟨h3, h9, -⟩
    · obtain ⟨j, hj, hj'⟩ := h5 k hk
      rcases C59_failed fl' e F pos j n atoms hj (hj'.trans hn) with h | h
      · exact .inl (h3.symm.trans h)
      · exact .inr (.inl ⟨h.1, h3.symm.trans h.2⟩)
    · exact .inr (.inr ⟨h3, h9⟩)

/-- **C96** (failures). For a well-formed file: everything in front of `moov` survives, whatever fails. -/
theorem C96_faults_front (c : Sched) (cap : Nat) (fl : Faults) (e : Env) (X : Bytes) (f : File) (atoms : List AtomData)
    (h : Writable e X f atoms) (hx : Fits e (X ++ f.ser)) :
    (writeTagFBuf c cap fl e (X ++ f.ser) X.length atoms).2.f.file.take (X ++ f.ftypBox.ser ++ serL id f.pre).length
      = X ++ f.ftypBox.ser ++ serL id f.pre := by
  have hp : X.length < 2^63 := by
    have := hx.file
    rw [List.length_append] at this
    omega
  obtain ⟨fl', h1, -⟩ := C96_faults c cap fl e (X ++ f.ser) X.length atoms hx hp
  rw [← h1]
  exact C60_front fl' e X f atoms h

/-- **C96** (failures). No more is written than by the save without failures, with at most one call more. -/
theorem C96_faults_cost (c : Sched) (cap : Nat) (fl : Faults) (e : Env) (F : Bytes) (pos : Nat) (atoms : List AtomData) (hx : Fits e F)
    (hp : pos < 2^63) :
    written (writeTagFBuf c cap fl e F pos atoms).2.f.trace ≤ written (writeTagTo e F pos atoms).2.trace ∧
    (writeTagFBuf c cap fl e F pos atoms).2.f.trace.length ≤ (writeTagTo e F pos atoms).2.trace.length + 1 := by
  obtain ⟨fl', -, h2, -⟩ := C96_faults c cap fl e F pos atoms hx hp
  rw [← h2]
  exact C94_faults fl' e F pos atoms

/-- Without failures: 62 calls of the reader, and 9 of the writer. -/
example : let x := writeTagFBuf (fun _ => .give 100000) 8192 Faults.none env0 fileW.ser 0 atomsW
    x.1 = .ok () ∧ x.2.b.tick = 62 ∧ x.2.f.tick = 9 ∧ x.2.f.file = (fileW.put atomsW).ser := by decide +kernel

/-- The second call of the writer fails after two bytes, in the second table: an error. The drop of the buffer tries again, and succeeds.
The calls are those of Model/Fault.lean where call 3 fails, since there the reads of the tables count. -/
example : let x := writeTagFBuf (fun _ => .give 100000) 8192 (failAt 1 2) env0 fileW.ser 0 atomsW
    x.1 = .err .io ∧ x.2.f.tick = 3 ∧ x.2.f.trace.length = 3 ∧ x.2.f.file ≠ fileW.ser ∧
    x.2.f.trace = (writeTagF (failAt 3 2) env0 fileW.ser 0 atomsW).2.trace := by decide +kernel

/-- The reader fails in call 60, before the second call of the writer. -/
example : let x := writeTagFBuf (fun k => if k = 60 then .err else .give 100000) 8192 (failAt 1 2) env0 fileW.ser 0 atomsW
    x.1 = .err .io ∧ x.2.b.hit = true ∧ x.2.f.tick = 1 ∧
    x.2.f.trace = (writeTagF (failAt 2 0) env0 fileW.ser 0 atomsW).2.trace := by decide +kernel

end Mp4.Props
