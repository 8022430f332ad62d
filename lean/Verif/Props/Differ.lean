import Verif.Props.Commute
/-
C41, continued: different tags give different files.
-/
namespace Mp4.Props
open Mp4 Spec

/-- **C41**: if two tags leave the same bytes when saved to the same file, their entries are the same, in the same order. -/
theorem C41_injective (e : Env) (X : Bytes) (f : File) (t u v : Tag) (ht : Rewritable e X f t.atoms) (hu : Rewritable e X f u.atoms)
    (vt : ∀ a ∈ t.atoms, Visible a) (vu : ∀ a ∈ u.atoms, Visible a) (dt : t.NoDup) (du : u.NoDup) (hc : f.Content v)
    (h : (writeTag e (X ++ f.ser) X.length t).2 = (writeTag e (X ++ f.ser) X.length u).2) : t.atoms = u.atoms := by
  obtain ⟨F, h1, h2⟩ := C41_write_read e X f v t ht.toWritable ht.fits ht.fit' vt dt hc
  obtain ⟨F', h1', h2'⟩ := C41_write_read e X f v u hu.toWritable hu.fits hu.fit' vu du hc
  rw [h1, h1'] at h
  obtain rfl : F = F' := h
  rw [h2] at h2'
  simp only [Out.ok.injEq, Tag.mk.injEq, true_and] at h2'
  exact h2'

/-- **C41**: a save that leaves the file as it was saves the entries that can be read from it. -/
theorem C41_unchanged (e : Env) (X : Bytes) (f : File) (t v : Tag) (ht : Rewritable e X f t.atoms) (vt : ∀ a ∈ t.atoms, Visible a)
    (dt : t.NoDup) (hc : f.Content v) (h : (writeTag e (X ++ f.ser) X.length t).2 = X ++ f.ser) :
    t.atoms = v.atoms ∧ readTag e (X ++ f.ser) X.length = .ok v := by
  obtain ⟨F, h1, h2⟩ := C41_write_read e X f v t ht.toWritable ht.fits ht.fit' vt dt hc
  rw [h1] at h
  obtain rfl : F = X ++ f.ser := h
  have hr := read_spec (X := X) (Y := []) (e := e) (by simpa using ht.fit) ht.wf hc
  rw [List.append_nil] at hr
  refine ⟨?_, hr⟩
  rw [hr] at h2
  simp only [Out.ok.injEq] at h2
  rw [h2]

/-- Saving the two entries of `atomsW` and saving none give different files. -/
example : (writeTag env0 ([] ++ fileW.ser) 0 { atoms := atomsW }).2 ≠ (writeTag env0 ([] ++ fileW.ser) 0 { atoms := [] }).2 := fun h =>
  absurd (C41_injective env0 [] fileW { atoms := atomsW } { atoms := [] } tagEx fileW_rewritable fileW_rewritable_nil
    (fun a ha => (atomsW_store a ha).2) (fun a ha => nomatch ha) (by decide) (by decide) fileW_content h) (by decide)

end Mp4.Props
