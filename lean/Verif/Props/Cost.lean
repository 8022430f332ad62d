import Verif.Proof.Cost
import Verif.Proof.FaultCost
import Verif.Props.Write
/-
C94: what a save costs.
-/
namespace Mp4.Props
open Mp4 Spec

/-- **C94** (bytes): a save writes as many bytes as the chunk offsets have if there is media data behind the movie atom, the sizes of
the atoms around the item list, the new atoms, and what is behind them together, whatever the capacity of the buffer. -/
theorem C94_bytes {e X f atoms} (h : Writable e X f atoms) : ∃ s, writeTagTo e (X ++ f.ser) X.length atoms = (.ok (), s) ∧
    written s.trace = f.adjusted + (f.change atoms).fields + (f.change atoms).fresh.length + (f.change atoms).behind.length := by
  obtain ⟨s, h1, -⟩ := h.run
  exact ⟨s, h1, (write_cost h.fit h.wf h.store h.old h.new h.tables h1).1⟩

/-- **C94** (calls): the bytes are written in chunks that fill at least half of the buffer, apart from a number of calls that depends
on the number of tracks alone. -/
theorem C94_calls {e X f atoms} (h : Writable e X f atoms) (hc : 0 < e.cap) : ∃ s, writeTagTo e (X ++ f.ser) X.length atoms = (.ok (), s) ∧
    s.trace.length ≤ 2 * written s.trace / e.cap + 4 * f.moov.tracks + 11 := by
  obtain ⟨s, h1, -⟩ := h.run
  refine ⟨s, h1, ?_⟩
  have h2 := (write_cost h.fit h.wf h.store h.old h.new h.tables h1).2
  have h3 : s.trace.length - (4 * f.moov.tracks + 11) ≤ 2 * written s.trace / e.cap := by
    rw [Nat.le_div_iff_mul_le hc, Nat.mul_comm, Nat.mul_sub]
    omega
  omega

/-- **C94** (parts): the bytes behind the new atoms are those behind the old ones; the bytes in front keep their length. -/
theorem C94_parts {e X f atoms} (h : Writable e X f atoms) : ∃ Q old P, f.ser = Q ++ old ++ (f.change atoms).behind ∧
    (f.put atoms).ser = P ++ (f.change atoms).fresh ++ (f.change atoms).behind ∧ P.length = Q.length :=
  change_parts h.store h.wf (by have := h.old; rw [List.length_append] at this; omega)
    (by have := h.new; rw [List.length_append] at this; omega) h.tables

/-- The sizes of the movie atom, of `udta` and of `meta` are at most 36 bytes. -/
theorem change_fields_le (f : File) (atoms : List AtomData) : (f.change atoms).fields ≤ 36 := by
  have hf : ∀ ext, fieldLen ext ≤ 12 := by intro ext; cases ext <;> decide
  have hu : ∀ u : Udta, (u.change atoms).fields ≤ 12 := by
    intro u
    unfold Udta.change
    split
    · rename_i ext m B _
      have := hf ext
      exact this
    · exact Nat.zero_le _
  have hm : ∀ m : Spec.Moov, (m.change atoms).fields ≤ 24 := by
    intro m
    unfold Spec.Moov.change
    split
    · rename_i ext u B _
      have h1 := hf ext
      have h2 := hu u
      show fieldLen ext + (u.change atoms).fields ≤ 24
      omega
    · exact Nat.zero_le _
  have h1 := hf f.moovExt
  have h2 := hm f.moov
  show fieldLen f.moovExt + (f.moov.change atoms).fields ≤ 36
  omega

/-- **C94** (bound): a save writes at most the chunk offsets, 36 bytes of sizes, the new atoms and what is behind them. -/
theorem C94_bound {e X f atoms} (h : Writable e X f atoms) : ∃ s, writeTagTo e (X ++ f.ser) X.length atoms = (.ok (), s) ∧
    written s.trace ≤ f.adjusted + 36 + (f.change atoms).fresh.length + (f.change atoms).behind.length ∧
    (f.change atoms).fresh.length + (f.change atoms).behind.length ≤ (f.put atoms).ser.length := by
  obtain ⟨s, h1, h2⟩ := C94_bytes h
  have h3 := change_fields_le f atoms
  obtain ⟨-, -, P, -, h4, -⟩ := C94_parts h
  refine ⟨s, h1, by omega, ?_⟩
  rw [h4]
  simp only [List.length_append]
  omega

/-- **C94** (failures): any bytes, whichever calls fail after whatever part of their data: at most as many bytes are written as by the
same save without failures, with at most one more call. -/
theorem C94_faults (fl : Faults) (e : Env) (F : Bytes) (pos : Nat) (atoms : List AtomData) :
    written (writeTagF fl e F pos atoms).2.trace ≤ written (writeTagTo e F pos atoms).2.trace ∧
    (writeTagF fl e F pos atoms).2.trace.length ≤ (writeTagTo e F pos atoms).2.trace.length + 1 :=
  writeTagF_cost fl e F pos atoms

/-- **C94** (failures), for well-formed files. -/
theorem C94_faults_bound (fl : Faults) {e X f atoms} (h : Writable e X f atoms) :
    written (writeTagF fl e (X ++ f.ser) X.length atoms).2.trace ≤
      f.adjusted + (f.change atoms).fields + (f.change atoms).fresh.length + (f.change atoms).behind.length := by
  obtain ⟨s, h1, h2⟩ := C94_bytes h
  have h3 := (C94_faults fl e (X ++ f.ser) X.length atoms).1
  rw [h1] at h3
  dsimp only at h3
  omega

/-- 12 bytes of chunk offsets, 20 of sizes (one of 64 bit), the items, and the atoms behind them, with 9 calls. -/
example : Writable env0 [] fileW atomsW ∧ fileW.adjusted = 12 ∧ (fileW.change atomsW).fields = 20 ∧ fileW.moov.tracks = 2 ∧
    (fileW.change atomsW).fresh = (ilstBox atomsW).ser ∧ (fileW.change atomsW).behind = serL id fileW.post ∧
    written (writeTagTo env0 fileW.ser 0 atomsW).2.trace = 12 + 20 + (ilstBox atomsW).ser.length + (serL id fileW.post).length ∧
    (writeTagTo env0 fileW.ser 0 atomsW).2.trace.length = 9 := by
  refine ⟨fileW_writable, ?_⟩
  decide +kernel

/-- The eleventh call fails after one byte; what remains is written when the writer is dropped. -/
example : (writeTagF ⟨fun k => if k = 10 then some 1 else none, false⟩ env0 fileW.ser 0 atomsW).1 = .err .io ∧
    (writeTagF ⟨fun k => if k = 10 then some 1 else none, false⟩ env0 fileW.ser 0 atomsW).2.trace.length = 10 ∧
    written (writeTagF ⟨fun k => if k = 10 then some 1 else none, false⟩ env0 fileW.ser 0 atomsW).2.trace =
      written (writeTagTo env0 fileW.ser 0 atomsW).2.trace ∧
    written (writeTagF ⟨fun k => if k = 4 then some 1 else none, false⟩ env0 fileW.ser 0 atomsW).2.trace = 16 := by decide +kernel

end Mp4.Props
