import Verif.Proof.Edit
import Verif.Props.Size
import Verif.Props.Undo
/-
C106: editing some fields of a file leaves the others as they are.
-/
namespace Mp4.Props
open Mp4 Spec

/-- **C106**: the entries that no call is about are kept with all their values and in their order, and no other entry takes their
identifier. -/
theorem C106_entries (t : Tag) (ht : t.NoDup) (p : List TagOp) :
    (runOps p t).atoms.filter (untouched p) = t.atoms.filter (untouched p) := by
  refine atoms_sameOn (S := fun j => p.all fun o => !about j o) (runOps_noDup p t ht) ht ?_
  rw [abs_runOps p t ht]
  refine fold_sameOn p (fun o ho j hj => ?_) _
  rw [List.all_eq_false]
  exact ⟨o, ho, by simp [hj]⟩

/-- **C106**: the values of an identifier are the ones before if no call is about it. -/
theorem C106_values (t : Tag) (ht : t.NoDup) (p : List TagOp) (i : Ident) (h : ∀ o ∈ p, about i.toData o = false) :
    (runOps p t).dataOf i = t.dataOf i := by
  rw [dataOf_abs, dataOf_abs, abs_runOps p t ht]
  refine (fold_sameOn (S := fun j => decide (j = i.toData)) p (fun o ho j hj => ?_) t.abs).2 _ (by simp)
  refine decide_eq_false fun e => ?_
  rw [e, h o ho] at hj
  cases hj

/-- **C106**: reading a file, making calls and saving the tag to the file succeeds; then the file shows the entries that no call is
about as before, in the same order, and the same file type and audio information. The value of every identifier is the one that
the calls about this identifier alone give. -/
theorem C106_file (e : Env) (X : Bytes) (f : File) (v : Tag) (p : List TagOp) (hc : f.Content v)
    (hw : Writable e X f (runOps p v).atoms) (hfit : f.PutFits (runOps p v).atoms) (hF : Fit e (X ++ (f.put (runOps p v).atoms).ser))
    (hv : ∀ a ∈ (runOps p v).atoms, Visible a) :
    readTag e (X ++ f.ser) X.length = .ok v ∧
    ∃ F u, writeTag e (X ++ f.ser) X.length (runOps p v) = (.ok (), F) ∧ readTag e F X.length = .ok u ∧
      u.ftyp = v.ftyp ∧ u.info = v.info ∧ u.atoms.filter (untouched p) = v.atoms.filter (untouched p) ∧
      (∀ i : Ident, (∀ o ∈ p, about i.toData o = false) → u.dataOf i = v.dataOf i) ∧
      ((∀ o ∈ p, separate o = true) → ∀ i : Ident, u.dataOf i = (runOps (p.filter (about i.toData)) v).dataOf i) := by
  have hr : readTag e (X ++ f.ser) X.length = .ok v := by
    have := read_spec (X := X) (Y := []) (e := e) (by rw [List.append_nil]; exact hw.fit) hw.wf hc
    rwa [List.append_nil] at this
  have hd := readTag_noDup hr
  obtain ⟨F, h1, h2⟩ := C41_write_read e X f v _ hw hfit hF hv (runOps_noDup p v hd) hc
  refine ⟨hr, F, _, h1, h2, rfl, rfl, C106_entries v hd p, fun i hi => C106_values v hd p i hi, fun hs i => ?_⟩
  show (runOps p v).dataOf i = _
  rw [dataOf_abs, dataOf_abs, abs_runOps p v hd, abs_runOps _ v hd]
  exact (fold_filter p v.abs hs).2

/-- What can be saved, in terms of sizes only: no UTF-16 texts, and everything together takes less than 4 GiB. -/
theorem writable_of_size {e : Env} {X : Bytes} {f : File} {t : Tag} (hw : f.WF) (ht : f.MediaBehind → f.moov.Tables)
    (hu : ∀ a ∈ t.atoms, ∀ d ∈ a.data, noUtf16Text d) (h4 : X.length + f.ser.length + storedSize t + 100 < 2^32)
    (h1 : X.length + f.ser.length + storedSize t + 61 ≤ e.maxPos) (h2 : X.length + f.ser.length + storedSize t + 61 < e.fuel) :
    Writable e X f t.atoms ∧ f.PutFits t.atoms ∧ Fit e (X ++ (f.put t.atoms).ser) := by
  rw [storedSize_eq] at h4 h1 h2
  have hput := put_ser_length (f := f) (atoms := t.atoms) ht
  have hins := inserted_length (m := f.moov) (atoms := t.atoms) (by omega)
  refine ⟨?_, putFits_of_length (by omega), ?_⟩
  · refine ⟨hw, ⟨?_, ?_, ?_⟩, fun a ha => ⟨hu a ha, fits_of_length ?_⟩, ?_, ?_, ?_, ht⟩
    case refine_4 =>
      have := serL_mem (box := Entry.box) (List.mem_map_of_mem (f := entryOf) ha)
      unfold entriesSize at h4
      omega
    all_goals rw [List.length_append]; omega
  · refine ⟨?_, ?_, ?_⟩ <;> rw [List.length_append] <;> omega

/-- **C106** with assumptions about sizes only. The calls may leave no UTF-16 text, no entry without values and none called `free`. -/
theorem C106_small (e : Env) (X : Bytes) (f : File) (v : Tag) (p : List TagOp) (hw : f.WF) (hc : f.Content v)
    (ht : f.MediaBehind → f.moov.Tables) (hu : ∀ a ∈ (runOps p v).atoms, ∀ d ∈ a.data, noUtf16Text d)
    (hv : ∀ a ∈ (runOps p v).atoms, Visible a) (h4 : X.length + f.ser.length + storedSize (runOps p v) + 100 < 2^32)
    (h1 : X.length + f.ser.length + storedSize (runOps p v) + 61 ≤ e.maxPos)
    (h2 : X.length + f.ser.length + storedSize (runOps p v) + 61 < e.fuel) :
    ∃ F u, writeTag e (X ++ f.ser) X.length (runOps p v) = (.ok (), F) ∧ readTag e F X.length = .ok u ∧
      u.ftyp = v.ftyp ∧ u.info = v.info ∧ u.atoms.filter (untouched p) = v.atoms.filter (untouched p) ∧
      ∀ i : Ident, (∀ o ∈ p, about i.toData o = false) → u.dataOf i = v.dataOf i := by
  obtain ⟨a, b, c⟩ := writable_of_size hw ht hu h4 h1 h2
  obtain ⟨-, F, u, g1, g2, g3, g4, g5, g6, -⟩ := C106_file e X f v p hc a b c hv
  exact ⟨F, u, g1, g2, g3, g4, g5, g6⟩

/-! ### A concrete case: a new title and a new artist; the freeform entry stays -/

def editEx : List TagOp :=
  [.setString (.fourcc (cc '©' 'n' 'a' 'm')) ['x'], .addString (.fourcc (cc '©' 'A' 'R' 'T')) ['y', 'z']]

theorem editEx_atoms : (runOps editEx tagEx).atoms =
    [⟨.fourcc (cc '©' 'n' 'a' 'm'), [.utf8 ['x']]⟩, ⟨.freeform ['m'] ['n'], [.beSigned [7]]⟩,
      ⟨.fourcc (cc '©' 'A' 'R' 'T'), [.utf8 ['y', 'z']]⟩] := by decide

theorem editEx_store : ∀ a ∈ (runOps editEx tagEx).atoms, Storable a ∧ Visible a := by
  have hb : ∀ a ∈ (runOps editEx tagEx).atoms, (entryOf a).box.Fits := by decide +kernel
  intro a ha
  refine ⟨⟨?_, hb a ha⟩, ?_⟩ <;>
  · rw [editEx_atoms] at ha
    simp only [List.mem_cons, List.not_mem_nil, or_false] at ha
    rcases ha with rfl | rfl | rfl <;> simp [noUtf16Text, Visible] <;> try decide

theorem editEx_rewritable : Rewritable env0 [] fileW (runOps editEx tagEx).atoms where
  wf := fileW_WF
  fit := fileW_writable.fit
  store := fun a ha => (editEx_store a ha).1
  old := fileW_writable.old
  new := by decide +kernel
  pos := by decide +kernel
  tables := fileW_writable.tables
  fits := putFits_of_small (by decide +kernel)
  fit' := ⟨by decide +kernel, by decide +kernel, by decide +kernel⟩
  range := fun _ => fileW_inRange _ (by decide +kernel)

/-- The freeform entry is still there, and the title and the artist are the new ones. -/
example : ∃ F u, writeTag env0 ([] ++ fileW.ser) 0 (runOps editEx tagEx) = (.ok (), F) ∧ readTag env0 F 0 = .ok u ∧
    u.info = tagEx.info ∧ u.atoms.filter (untouched editEx) = [⟨.freeform ['m'] ['n'], [.beSigned [7]]⟩] ∧
    u.dataOf (.fourcc (cc '©' 'n' 'a' 'm')) = [.utf8 ['x']] ∧ u.dataOf (.fourcc (cc '©' 'A' 'R' 'T')) = [.utf8 ['y', 'z']] := by
  obtain ⟨-, F, u, h1, h2, -, h4, h5, -, h7⟩ :=
    C106_file env0 [] fileW tagEx editEx fileW_content editEx_rewritable.toWritable editEx_rewritable.fits editEx_rewritable.fit' fun a ha => (editEx_store a ha).2
  have hs := h7 (by simp [editEx, separate])
  exact ⟨F, u, h1, h2, h4, h5.trans (by decide), (hs _).trans (by decide), (hs _).trans (by decide)⟩

example : ∃ F u, writeTag env0 ([] ++ fileW.ser) 0 (runOps editEx tagEx) = (.ok (), F) ∧ readTag env0 F 0 = .ok u ∧
    u.ftyp = tagEx.ftyp ∧ u.info = tagEx.info ∧ u.atoms.filter (untouched editEx) = tagEx.atoms.filter (untouched editEx) ∧
    ∀ i : Ident, (∀ o ∈ editEx, about i.toData o = false) → u.dataOf i = tagEx.dataOf i :=
  C106_small env0 [] fileW tagEx editEx fileW_WF fileW_content (fun _ => fileW_tables) (fun a ha => (editEx_store a ha).1.1)
    (fun a ha => (editEx_store a ha).2) (by decide +kernel) (by decide +kernel) (by decide +kernel)

end Mp4.Props
