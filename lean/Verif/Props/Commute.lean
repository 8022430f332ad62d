import Verif.Proof.Commute
import Verif.Props.Dump
import Verif.Props.Path
import Verif.Props.SameSize
import Verif.Props.TagMap
/-
C104: only the order of calls about the same identifier matters.
-/
namespace Mp4.Props
open Mp4 Spec

theorem run_rest (o : TagOp) (t : Tag) : (o.run t).ftyp = t.ftyp ∧ (o.run t).info = t.info := by
  have hm : ∀ (t : Tag) (i) (f), (t.dataMutOf i f).ftyp = t.ftyp ∧ (t.dataMutOf i f).info = t.info := by
    intro t i f; unfold Tag.dataMutOf; split <;> exact ⟨rfl, rfl⟩
  have hr : ∀ (t : Tag) (i) (p), (t.retainDataOf i p).ftyp = t.ftyp ∧ (t.retainDataOf i p).info = t.info := by
    intro t i p; unfold Tag.retainDataOf
    split
    · dsimp only
      split
      · split <;> exact ⟨rfl, rfl⟩
      · exact ⟨rfl, rfl⟩
    · exact ⟨rfl, rfl⟩
  have hs : ∀ (t : Tag) (i) (d), (t.setData i d).ftyp = t.ftyp ∧ (t.setData i d).info = t.info := by
    intro t i d; unfold Tag.setData; split <;> exact ⟨rfl, rfl⟩
  have hsa : ∀ (t : Tag) (i) (d), (t.setAllData i d).ftyp = t.ftyp ∧ (t.setAllData i d).info = t.info := by
    intro t i d; unfold Tag.setAllData; split <;> exact ⟨rfl, rfl⟩
  have ha : ∀ (t : Tag) (i) (d), (t.addData i d).ftyp = t.ftyp ∧ (t.addData i d).info = t.info := by
    intro t i d; unfold Tag.addData; split <;> exact ⟨rfl, rfl⟩
  have haa : ∀ (t : Tag) (i) (d), (t.addAllData i d).ftyp = t.ftyp ∧ (t.addAllData i d).info = t.info := by
    intro t i d; unfold Tag.addAllData; split <;> exact ⟨rfl, rfl⟩
  have hf : ∀ (t : Tag) (i) (f) (u), t.withFirstBytes i f = some u → u.ftyp = t.ftyp ∧ u.info = t.info := by
    intro t i f u h; unfold Tag.withFirstBytes at h
    split at h
    · cases h
    · split at h
      · cases h
      · obtain ⟨l, -, rfl⟩ := Option.map_eq_some_iff.mp h
        exact ⟨rfl, rfl⟩
  have hg : ∀ (t : Tag) (i) (f), ((t.withFirstBytes i f).getD t).ftyp = t.ftyp ∧ ((t.withFirstBytes i f).getD t).info = t.info := by
    intro t i f
    cases h : t.withFirstBytes i f with
    | none => exact ⟨rfl, rfl⟩
    | some u => exact hf _ _ _ _ h
  cases o <;> first
    | exact hs _ _ _
    | exact hsa _ _ _
    | exact ha _ _ _
    | exact haa _ _ _
    | exact hr _ _ _
    | exact hm _ _ _
    | exact ⟨rfl, rfl⟩
    | (simp only [TagOp.run, Tag.setPair, Tag.setNumber, Tag.setTotal]
       split
       · rename_i h; exact hf _ _ _ _ h
       · exact hs _ _ _)
    | (simp only [TagOp.run, Tag.removeNumber, Tag.removeTotal]
       split
       · split
         · exact hg _ _ _
         · exact ⟨rfl, rfl⟩
       · exact ⟨rfl, rfl⟩)
    | (simp only [TagOp.run, Tag.takeGenre]; split <;> exact ⟨rfl, rfl⟩)

theorem runOps_rest (p : List TagOp) (t : Tag) : (runOps p t).ftyp = t.ftyp ∧ (runOps p t).info = t.info := by
  induction p generalizing t with
  | nil => exact ⟨rfl, rfl⟩
  | cons o p ih => exact ⟨(ih _).1.trans (run_rest o t).1, (ih _).2.trans (run_rest o t).2⟩

/-- **C104**: two programs that make the same calls about every identifier, in the same order, leave the same values under every
identifier, whatever the order of calls about different identifiers. -/
theorem C104_values (t : Tag) (ht : t.NoDup) (p q : List TagOp) (hp : ∀ o ∈ p, separate o = true) (hq : ∀ o ∈ q, separate o = true)
    (h : SameCalls p q) (i : Ident) : (runOps p t).dataOf i = (runOps q t).dataOf i := by
  rw [dataOf_abs, dataOf_abs]
  exact (sameAt_runOps t ht hp hq h _).2

/-- **C104**: the tags differ at most in the order of their entries. -/
theorem C104_entries (t : Tag) (ht : t.NoDup) (p q : List TagOp) (hp : ∀ o ∈ p, separate o = true) (hq : ∀ o ∈ q, separate o = true)
    (h : SameCalls p q) :
    (runOps p t).atoms.Perm (runOps q t).atoms ∧ (runOps p t).ftyp = (runOps q t).ftyp ∧ (runOps p t).info = (runOps q t).info :=
  ⟨perm_of_agree (runOps_noDup p t ht) (runOps_noDup q t ht) (sameAt_runOps t ht hp hq h),
    (runOps_rest p t).1.trans (runOps_rest q t).1.symm, (runOps_rest p t).2.trans (runOps_rest q t).2.symm⟩

theorem ilst_perm {A B : List AtomData} (h : A.Perm B) : (ilstBox A).ser.length = (ilstBox B).ser.length := by
  have : (serL Entry.box (A.map entryOf)).length = (serL Entry.box (B.map entryOf)).length :=
    ((h.map entryOf).flatMap_right _).length_eq
  simp only [ilstBox, mkBox, Box.ser_length, Box.headLen, this]

/-- **C104**: dumped, both give as many bytes. -/
theorem C104_dumped (e : Env) (t : Tag) (ht : t.NoDup) (p q : List TagOp) (hp : ∀ o ∈ p, separate o = true)
    (hq : ∀ o ∈ q, separate o = true) (h : SameCalls p q) (hs : ∀ a ∈ (runOps p t).atoms, Storable a) :
    (dumpTag e (runOps p t)).2 = .ok () ∧ (dumpTag e (runOps q t)).2 = .ok () ∧
      (dumpTag e (runOps p t)).1.length = (dumpTag e (runOps q t)).1.length := by
  have hperm := (C104_entries t ht p q hp hq h).1
  have hs' : ∀ a ∈ (runOps q t).atoms, Storable a := fun a ha => hs a (hperm.mem_iff.mpr ha)
  rw [C28_dump e _ hs, C28_dump e _ hs']
  refine ⟨rfl, rfl, ?_⟩
  have hl := ilst_perm hperm
  generalize (runOps p t).atoms = A at *
  generalize (runOps q t).atoms = B at *
  have h4 : (newMeta A).ser.length = (newMeta B).ser.length := by simp [newMeta, Meta.ser, serL, hl]
  have h5 : (newUdta A).ser.length = (newUdta B).ser.length := by
    simp only [newUdta, metaKid, Udta.ser, serL_cons, serL_nil, Kid.box, Box.ser_length, Box.headLen, List.length_append, h4]
  have h6 : (newMoov A).ser.length = (newMoov B).ser.length := by
    simp only [newMoov, udtaKid, Moov.ser, serL_cons, serL_nil, MoovKid.box, Box.ser_length, Box.headLen, List.length_append, h5]
  simp only [dumpFile, File.ser, File.ftypBox, File.moovBox, List.length_append, Box.ser_length, Box.headLen, h6]

/-- **C104**: saved to the same file, both succeed if one does, and the files differ at most inside the item list, which has the
same size and the same items. -/
theorem C104_saved (e : Env) (X : Bytes) (f : File) (t : Tag) (ht : t.NoDup) (p q : List TagOp) (hp : ∀ o ∈ p, separate o = true)
    (hq : ∀ o ∈ q, separate o = true) (h : SameCalls p q) (hw : Writable e X f (runOps p t).atoms) :
    ∃ P S, writeTag e (X ++ f.ser) X.length (runOps p t) = (.ok (), P ++ (ilstBox (runOps p t).atoms).ser ++ S) ∧
      writeTag e (X ++ f.ser) X.length (runOps q t) = (.ok (), P ++ (ilstBox (runOps q t).atoms).ser ++ S) ∧
      (ilstBox (runOps p t).atoms).ser.length = (ilstBox (runOps q t).atoms).ser.length ∧
      ((runOps p t).atoms.map entryOf).Perm ((runOps q t).atoms.map entryOf) := by
  have hperm := (C104_entries t ht p q hp hq h).1
  have hl := ilst_perm hperm
  obtain ⟨hw', -⟩ := hw.sameSize hl.symm (fun a ha => hw.store a (hperm.mem_iff.mpr ha))
  obtain ⟨P, S, hps⟩ := (Around.refl (fun l => (ilstBox l).ser.length = (ilstBox (runOps p t).atoms).ser.length)
    (fun l => (ilstBox l).ser)).put (fun _ h => h) X f
  obtain ⟨s, h1, h2, -⟩ := hw.run
  obtain ⟨s', h1', h2', -⟩ := hw'.run
  refine ⟨P, S, ?_, ?_, hl, hperm.map _⟩
  · rw [writeTag, h1]; exact congrArg (Prod.mk _) (h2.trans (hps _ rfl))
  · rw [writeTag, h1']; exact congrArg (Prod.mk _) (h2'.trans (hps _ hl.symm))

/-- **C104**: read again, both files show the same values under every identifier. -/
theorem C104_read (e : Env) (X : Bytes) (f : File) (t : Tag) (ht : t.NoDup) (p q : List TagOp) (hp : ∀ o ∈ p, separate o = true)
    (hq : ∀ o ∈ q, separate o = true) (h : SameCalls p q) (hw : Rewritable e X f (runOps p t).atoms)
    (hw' : Rewritable e X f (runOps q t).atoms) (hv : ∀ a ∈ (runOps p t).atoms, Visible a) (u : Tag) (hc : f.Content u) :
    ∃ F F' v v', writeTag e (X ++ f.ser) X.length (runOps p t) = (.ok (), F) ∧ writeTag e (X ++ f.ser) X.length (runOps q t) = (.ok (), F') ∧
      readTag e F X.length = .ok v ∧ readTag e F' X.length = .ok v' ∧ F.length = F'.length ∧ ∀ i, v.dataOf i = v'.dataOf i := by
  have hperm := (C104_entries t ht p q hp hq h).1
  obtain ⟨F, h1, h2⟩ := C41_write_read e X f u _ hw.toWritable hw.fits hw.fit' hv (runOps_noDup p t ht) hc
  obtain ⟨F', h3, h4⟩ := C41_write_read e X f u _ hw'.toWritable hw'.fits hw'.fit' (fun a ha => hv a (hperm.mem_iff.mpr ha))
    (runOps_noDup q t ht) hc
  obtain ⟨P, S, h5, h6, h7, -⟩ := C104_saved e X f t ht p q hp hq h hw.toWritable
  refine ⟨F, F', _, _, h1, h3, h2, h4, ?_, fun i => C104_values t ht p q hp hq h i⟩
  rw [h5] at h1; rw [h6] at h3
  rw [← (Prod.mk.inj h1).2, ← (Prod.mk.inj h3).2]
  simp only [List.length_append, h7]

/-- **C104**: if the calls create and remove no entry, the tags are equal. -/
theorem C104_same (t : Tag) (ht : t.NoDup) (p q : List TagOp) (hp : ∀ o ∈ p, keeps o = true) (hq : ∀ o ∈ q, keeps o = true)
    (hi : ∀ o ∈ p ++ q, ∀ j, about j o = true → ∃ a ∈ t.atoms, a.ident = j) (h : SameCalls p q) : runOps p t = runOps q t := by
  have hi' : ∀ o ∈ p ++ q, ∀ j, about j o = true → j ∈ t.abs.keys := fun o ho j hj => by
    obtain ⟨a, ha, rfl⟩ := hi o ho j hj
    exact List.mem_map_of_mem ha
  obtain ⟨h1, h2, h3⟩ := C104_entries t ht p q (fun o ho => separate_of_keeps (hp o ho)) (fun o ho => separate_of_keeps (hq o ho)) h
  have hkp : (runOps p t).abs.keys = t.abs.keys := by
    rw [abs_runOps p t ht]; exact keys_fold p hp fun o ho => hi' o (List.mem_append_left _ ho)
  have hkq : (runOps q t).abs.keys = t.abs.keys := by
    rw [abs_runOps q t ht]; exact keys_fold q hq fun o ho => hi' o (List.mem_append_right _ ho)
  have h4 : (runOps p t).atoms = (runOps q t).atoms := eq_of_perm h1 (hkp.trans hkq.symm) (runOps_noDup p t ht)
  cases hx : runOps p t
  cases hy : runOps q t
  rw [hx, hy] at h2 h3 h4
  simp only at h2 h3 h4
  rw [h2, h3, h4]

/-- Both entries exist already: adding a string to one and setting the other commute. -/
example : runOps [.addString (.fourcc ARTIST) ['c'], .setArtwork ⟨.bmp, [9]⟩] sampleTag =
    runOps [.setArtwork ⟨.bmp, [9]⟩, .addString (.fourcc ARTIST) ['c']] sampleTag := by
  refine C104_same _ (by decide) _ _ (by simp [keeps]) (by simp [keeps]) ?_ ?_
  · intro o ho j hj
    simp only [List.cons_append, List.nil_append, List.mem_cons, List.not_mem_nil, or_false] at ho
    have : j = .fourcc ARTIST ∨ j = .fourcc ARTWORK := by
      rcases ho with rfl | rfl | rfl | rfl <;> obtain rfl := of_decide_eq_true hj <;> decide
    rcases this with rfl | rfl
    · exact ⟨_, .head _, rfl⟩
    · exact ⟨_, .tail _ (.head _), rfl⟩
  · intro j
    by_cases h1 : j = .fourcc ARTIST
    · subst h1; rfl
    · simp only [List.filter_cons, about, Ident.toData, h1, decide_false, Bool.false_eq_true, if_false]; rfl

/-! ### A concrete case -/

def callsA : List TagOp :=
  [.setString (.fourcc (cc '©' 'n' 'a' 'm')) ['l', 'o', 'n', 'g', 'e', 'r'], .add (.freeform ⟨['m'], ['n']⟩) (.beSigned [1]),
    .retainStrings fun _ s => s ≠ ['q'], .addString (.freeform ⟨['m'], ['n']⟩) ['z']]

def callsB : List TagOp :=
  [.add (.freeform ⟨['m'], ['n']⟩) (.beSigned [1]), .setString (.fourcc (cc '©' 'n' 'a' 'm')) ['l', 'o', 'n', 'g', 'e', 'r'],
    .retainStrings fun _ s => s ≠ ['q'], .addString (.freeform ⟨['m'], ['n']⟩) ['z']]

theorem calls_separate : (∀ o ∈ callsA, separate o = true) ∧ ∀ o ∈ callsB, separate o = true := by
  simp [callsA, callsB, separate]

theorem calls_same : SameCalls callsA callsB := by
  intro j
  by_cases h1 : j = .fourcc (cc '©' 'n' 'a' 'm')
  · subst h1
    simp [callsA, callsB, List.filter_cons, about, Ident.toData]
  · by_cases h2 : j = .freeform ['m'] ['n']
    · subst h2
      simp [callsA, callsB, List.filter_cons, about, Ident.toData]
    · simp [callsA, callsB, List.filter_cons, about, Ident.toData, h1, h2]

theorem callsA_atoms : (runOps callsA {}).atoms = atomsW := by decide

theorem callsB_atoms : (runOps callsB {}).atoms = atomsW.reverse := by decide

example : ∃ P S, writeTag env0 ([] ++ fileW.ser) 0 (runOps callsA {}) = (.ok (), P ++ (ilstBox (runOps callsA {}).atoms).ser ++ S) ∧
    writeTag env0 ([] ++ fileW.ser) 0 (runOps callsB {}) = (.ok (), P ++ (ilstBox (runOps callsB {}).atoms).ser ++ S) ∧
    (ilstBox (runOps callsA {}).atoms).ser.length = (ilstBox (runOps callsB {}).atoms).ser.length ∧
    ((runOps callsA {}).atoms.map entryOf).Perm ((runOps callsB {}).atoms.map entryOf) :=
  C104_saved env0 [] fileW {} (by decide) callsA callsB calls_separate.1 calls_separate.2 calls_same
    (by rw [callsA_atoms]; exact fileW_writable)

example : ∃ F F' v v', writeTag env0 ([] ++ fileW.ser) 0 (runOps callsA {}) = (.ok (), F) ∧
    writeTag env0 ([] ++ fileW.ser) 0 (runOps callsB {}) = (.ok (), F') ∧ readTag env0 F 0 = .ok v ∧ readTag env0 F' 0 = .ok v' ∧
    F.length = F'.length ∧ ∀ i, v.dataOf i = v'.dataOf i :=
  C104_read env0 [] fileW {} (by decide) callsA callsB calls_separate.1 calls_separate.2 calls_same
    (by rw [callsA_atoms]; exact fileW_rewritable)
    (by
      rw [callsB_atoms]
      exact { wf := fileW_WF, fit := fileW_writable.fit, store := fun a ha => fileW_writable.store a (List.mem_reverse.mp ha)
              old := fileW_writable.old, new := by decide +kernel, pos := by decide +kernel, tables := fileW_writable.tables
              fits := putFits_of_small (by decide +kernel), fit' := ⟨by decide +kernel, by decide +kernel, by decide +kernel⟩
              range := fun _ => fileW_inRange _ (by decide +kernel) })
    (by rw [callsA_atoms]; exact fun a ha => (atomsW_store a ha).2) tagEx fileW_content

example : (dumpTag env0 (runOps callsA {})).1.length = (dumpTag env0 (runOps callsB {})).1.length :=
  (C104_dumped env0 {} (by decide) callsA callsB calls_separate.1 calls_separate.2 calls_same
    (by rw [callsA_atoms]; exact fileW_writable.store)).2.2

/-- **C104**: the order of the entries does depend on the order of the calls, and so do the bytes that are saved or dumped. -/
theorem C104_order_visible : ∃ p q, SameCalls p q ∧ (∀ o ∈ p, separate o = true) ∧ (∀ o ∈ q, separate o = true) ∧
    runOps p {} ≠ runOps q {} ∧ (dumpTag env0 (runOps p {})).1 ≠ (dumpTag env0 (runOps q {})).1 := by
  refine ⟨callsA, callsB, calls_same, calls_separate.1, calls_separate.2, ?_, ?_⟩
  · intro h
    have h := congrArg Tag.atoms h
    rw [callsA_atoms, callsB_atoms] at h
    exact absurd h (by decide)
  · intro h
    have h1 : runOps callsA {} = { atoms := atomsW } := by
      have := runOps_rest callsA {}
      cases hx : runOps callsA {} with
      | mk a b c =>
        have h2 := callsA_atoms
        rw [hx] at this h2
        simp only at this h2
        rw [this.1, this.2, h2]
    have h2 : runOps callsB {} = { atoms := atomsW.reverse } := by
      have := runOps_rest callsB {}
      cases hx : runOps callsB {} with
      | mk a b c =>
        have h2 := callsB_atoms
        rw [hx] at this h2
        simp only at this h2
        rw [this.1, this.2, h2]
    rw [h1, h2] at h
    revert h
    decide +kernel

/-- **C104**: for `take_genre` the order matters although it only takes custom genres: it takes none while there is a standard
genre. -/
theorem C104_take_genre : ∃ (t : Tag) (p q : List TagOp), t.NoDup ∧ SameCalls p q ∧
    (runOps p t).dataOf (.fourcc (cc '©' 'g' 'e' 'n')) ≠ (runOps q t).dataOf (.fourcc (cc '©' 'g' 'e' 'n')) := by
  refine ⟨{ atoms := [⟨.fourcc (cc '©' 'g' 'e' 'n'), [.utf8 ['x']]⟩] }, [.addStandardGenre 5, .takeGenre], [.takeGenre, .addStandardGenre 5],
    by decide, ?_, by decide⟩
  intro j
  by_cases h1 : j = .fourcc (cc '©' 'g' 'e' 'n')
  · subst h1; rfl
  · simp only [List.filter_cons, about, h1, decide_false, Bool.false_eq_true, if_false]
    rfl

end Mp4.Props
