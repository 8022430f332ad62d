import Verif.Proof.BufSave
import Verif.Props.Buffered
import Verif.Props.WriteMore
/-
Saving through a `BufReader` and a `BufWriter` that share the cursor of the file: C96, the whole save.
-/
namespace Mp4.Props
open Mp4 Spec

/-- **C96.** The whole save, for every file and tag, whatever the file does in each call of the reader, whatever the capacities of the two
buffers: the outcome, the calls that change the file and the resulting file are those of the save in Model/Write.lean, where the reader
leaves the cursor anywhere; or an error of the reader is returned, or the iterations of the model did not suffice for the interruptions.
Then exactly the first of those calls were made, the file is what they make of it, and it has its old length. -/
theorem C96_save (c : Sched) (cap : Nat) (e : Env) (F : Bytes) (pos : Nat) (t : Tag) (hx : Fits e F) (hp : pos < 2^63) :
    let x := writeTagToBuf c cap e F pos t.atoms
    let calls := (writeTagTo e F pos t.atoms).2.trace
    (((x.1, x.2.w.file) = writeTag e F pos t ∧ x.2.w.trace = calls) ∨
      (((x.2.b.hit = true ∧ x.1 = .err .io) ∨ (x.1 = .fuel ∧ ¬ Spec.Enough c e F)) ∧
        ∃ A B, calls = A ++ B ∧ x.2.w.trace = A ∧ x.2.w.file = A.foldl Op.apply F ∧ x.2.w.file.length = F.length)) ∧
    ((∃ k < x.2.b.tick, c k = .err) → x.1 = .err .io) ∧
    ((∀ k < x.2.b.tick, ∃ n, c k = .give n) → x.2.b.hit = false) := by
  intro x calls
  obtain ⟨h1, h2⟩ := writeTagToBuf_run (c := c) (cap := cap) hx hp t.atoms x (writeTagTo e F pos t.atoms) rfl rfl
  clear_value x
  refine ⟨?_, fun ⟨k, hk, hc⟩ => ?_, fun h => h2.good fun k _ hk => h k hk⟩
  · rcases h1 with ⟨h3, h4, h5, -⟩ | ⟨h3, h4, h6, ops, h5⟩
    · exact .inl ⟨Prod.ext h3 h4, h5⟩
    · refine .inr ⟨?_, x.2.w.trace, ops, h5, rfl, h4, h6⟩
      rcases h3 with h3 | ⟨-, h3⟩
      · exact .inl h3
      · exact .inr h3
  · have hh : x.2.b.hit = true := by
      cases hh : x.2.b.hit
      · exact absurd hc (h2.none hh k (Nat.zero_le _) hk)
      · rfl
    rcases h1 with ⟨-, -, -, h⟩ | ⟨⟨-, h⟩ | ⟨h, -⟩, -⟩
    · rw [hh] at h; cases h
    · exact h
    · rw [hh] at h; cases h

/-- **C96.** If the reader reports no errors, saving through the buffers is saving. -/
theorem C96_save_path (c : Sched) (cap : Nat) (e : Env) (fs : Fs) (p : String) (t : Tag) (hc : NoFaults c)
    (hx : ∀ n, Fits e (fs.data n) ∧ (fs.data n).length < e.fuel) : writeToPathBuf c cap e fs p t = writeToPath e fs p t := by
  unfold writeToPathBuf writeToPath
  cases fs.node p with
  | none => rfl
  | some n =>
    dsimp only
    split
    · obtain ⟨h1, -, h3⟩ := C96_save c cap e (fs.data n) 0 t (hx n).1 (by omega)
      rcases h1 with ⟨h, -⟩ | ⟨⟨h, -⟩ | ⟨-, h⟩, -⟩
      · rw [← h]
      · rw [h3 fun k _ => hc k] at h; cases h
      · exact absurd (NoFaults.enough hc (hx n).2) h
    · rfl

/-- 62 calls of the reader reach the file, which make the same 9 writes as in Model/Write.lean. -/
example : (writeTagToBuf (fun _ => .give 100000) 8192 env0 fileW.ser 0 atomsW).2.b.tick = 62 ∧
    (writeTagToBuf (fun _ => .give 100000) 8192 env0 fileW.ser 0 atomsW).2.w.trace = (writeTagTo env0 fileW.ser 0 atomsW).2.trace ∧
    (writeTagTo env0 fileW.ser 0 atomsW).2.trace.length = 9 := by decide +kernel

/-- A file that returns at most three bytes per call, buffers of eleven and three bytes. -/
example : (writeTagToBuf (fun _ => .give 2) 11 { env0 with cap := 3 } fileW.ser 0 atomsW).2.w.file = (fileW.put atomsW).ser := by decide +kernel

/-- The reader fails in call 60, in the second table: the first one has its new entry already, the rest of the file is as before. -/
example : (writeTagToBuf (fun k => if k = 60 then .err else .give 100000) 8192 env0 fileW.ser 0 atomsW).1 = .err .io ∧
    (writeTagToBuf (fun k => if k = 60 then .err else .give 100000) 8192 env0 fileW.ser 0 atomsW).2.w.file ≠ fileW.ser ∧
    (writeTagToBuf (fun k => if k = 60 then .err else .give 100000) 8192 env0 fileW.ser 0 atomsW).2.w.trace =
      (writeTagTo env0 fileW.ser 0 atomsW).2.trace.take 1 := by decide +kernel

/-- In call 60 (asking for the position of the entries) the cursor is behind what has been read ahead, in call 61 at the first entry. -/
example : (writeTagToBuf (fun k => if k = 60 then .err else .give 100000) 8192 env0 fileW.ser 0 atomsW).2.w.cur = 509 ∧
    (writeTagToBuf (fun k => if k = 61 then .err else .give 100000) 8192 env0 fileW.ser 0 atomsW).2.w.cur = 269 := by decide +kernel

end Mp4.Props
