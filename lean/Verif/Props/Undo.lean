import Verif.Proof.Undo
import Verif.Proof.Example
import Verif.Props.Path

/-!
# Taking changes back (C102)

A program reads a tag, saves other tags any number of times, and then saves the tag it has read first. What is read is always
the first tag again. The bytes are those from before exactly if the item list was in the form in which the library saves it, with
a handler next to it: so if the file was saved or dumped by the library before, but not in general.
-/

namespace Mp4.Props
open Mp4 Spec

/-- The tags are saved in turn, each of them successfully. -/
inductive Saves (e : Env) (p : Nat) : Bytes → List Tag → Bytes → Prop where
  | nil {F} : Saves e p F [] F
  | cons {F F1 F2 u us} : writeTag e F p u = (.ok (), F1) → Saves e p F1 us F2 → Saves e p F (u :: us) F2

theorem Saves.det {e p F us F1 F2} (h : Saves e p F us F1) (h' : Saves e p F us F2) : F1 = F2 := by
  induction h with
  | nil => cases h'; rfl
  | cons h1 _ ih =>
    cases h' with
    | cons h1' h2' =>
      rw [h1] at h1'
      injection h1' with _ h1'
      subst h1'
      exact ih h2'

/-- A tag that can be saved to the file (C41), with less than 2 GiB of items. -/
structure Saveable (e : Env) (X : Bytes) (f : File) (u : Tag) : Prop extends Rewritable e X f u.atoms where
  small : (ilstBox u.atoms).ser.length < 2^31

theorem Writable.save {e X f} {u : Tag} (h : Writable e X f u.atoms) :
    writeTag e (X ++ f.ser) X.length u = (.ok (), X ++ (f.put u.atoms).ser) := by
  obtain ⟨s, h1, h2, -⟩ := h.run
  rw [writeTag, h1, ← h2]

theorem saves_from {e X f} {us : List Tag} {t : Tag} (hus : ∀ u ∈ us, Saveable e X f u) (ht : Saveable e X f t) (w : Tag)
    (hw : Saveable e X f w) : Saves e X.length (X ++ (f.put w.atoms).ser) (us ++ [t]) (X ++ (f.put t.atoms).ser) := by
  induction us generalizing w with
  | nil =>
    have h := (hw.again ht.toWritable (C48_sameForm _ _ hw.small ht.small)).save
    rw [put_put hw.tables (C48_sameForm _ _ hw.small ht.small)] at h
    exact .cons h .nil
  | cons u us ih =>
    have hu := hus u List.mem_cons_self
    have h := (hw.again hu.toWritable (C48_sameForm _ _ hw.small hu.small)).save
    rw [put_put hw.tables (C48_sameForm _ _ hw.small hu.small)] at h
    exact .cons h (ih (fun x hx => hus x (List.mem_cons_of_mem _ hx)) u hu)

/-- **C102.** However many tags are saved in between: afterwards the file is the one that saving the last tag alone produces. -/
theorem C102_history (e : Env) (X : Bytes) (f : File) (us : List Tag) (t : Tag) (hus : ∀ u ∈ us, Saveable e X f u)
    (ht : Saveable e X f t) :
    ∃ F', Saves e X.length (X ++ f.ser) (us ++ [t]) F' ∧ Saves e X.length (X ++ f.ser) [t] F' := by
  refine ⟨X ++ (f.put t.atoms).ser, ?_, .cons ht.toWritable.save .nil⟩
  cases us with
  | nil => exact .cons ht.toWritable.save .nil
  | cons u us =>
    exact .cons (hus u List.mem_cons_self).toWritable.save
      (saves_from (fun x hx => hus x (List.mem_cons_of_mem _ hx)) ht u (hus u List.mem_cons_self))

/-- **C102.** The tag read first is read again. -/
theorem C102_read (e : Env) (X : Bytes) (f : File) (us : List Tag) (t : Tag) (F' : Bytes) (hus : ∀ u ∈ us, Saveable e X f u)
    (ht : Saveable e X f t) (hc : f.Content t) (h : Saves e X.length (X ++ f.ser) (us ++ [t]) F') :
    readTag e (X ++ f.ser) X.length = .ok t ∧ readTag e F' X.length = .ok t := by
  have hr : readTag e (X ++ f.ser) X.length = .ok t := by
    have := read_spec (Y := []) (by rw [List.append_nil]; exact ht.fit) ht.wf hc
    rwa [List.append_nil] at this
  refine ⟨hr, ?_⟩
  obtain ⟨F1, h1, h2⟩ := C102_history e X f us t hus ht
  rw [h.det h1]
  obtain ⟨F2, h3, h4⟩ := C41_write_read e X f t t ht.toWritable ht.fits ht.fit' (readTag_visible hr) (readTag_noDup hr) hc
  rw [h2.det (.cons h3 .nil)]
  exact h4

/-- **C102.** Every byte is restored exactly if the item list that counts is in the form in which the items are saved and there is
a handler next to it. -/
theorem C102_iff (e : Env) (X : Bytes) (f : File) (us : List Tag) (t : Tag) (F' : Bytes) (hus : ∀ u ∈ us, Saveable e X f u)
    (ht : Saveable e X f t) (h : Saves e X.length (X ++ f.ser) (us ++ [t]) F') :
    F' = X ++ f.ser ↔ f.moov.Holds t.atoms := by
  obtain ⟨F1, h1, h2⟩ := C102_history e X f us t hus ht
  rw [h.det h1, h2.det (.cons ht.toWritable.save .nil), ← put_self ht.tables]
  constructor
  · intro he
    have hl := ht.new
    rw [List.length_append] at hl
    exact file_inj (put_WF ht.wf ht.tables ht.fits) ht.wf (by omega) (List.append_cancel_left he)
  · intro he
    rw [he]

/-- **C102.** So it is in a file that was saved before, whatever it was like before that: changes are taken back completely. -/
theorem C102_saved (e : Env) (X : Bytes) (g : File) (us : List Tag) (t : Tag) (F F' : Bytes) (hus : ∀ u ∈ us, Saveable e X g u)
    (ht : Saveable e X g t) (h0 : writeTag e (X ++ g.ser) X.length t = (.ok (), F)) (h : Saves e X.length F (us ++ [t]) F') :
    F' = F := by
  have h4 : Saves e X.length (X ++ g.ser) ((t :: us) ++ [t]) F' := .cons h0 h
  obtain ⟨F2, h5, h6⟩ := C102_history e X g (t :: us) t (by simpa using ⟨ht, hus⟩) ht
  rw [h4.det h5, h6.det (.cons h0 .nil)]

/-- **C102.** And in a dumped file. There, any number of saves is the same as dumping the last tag. -/
theorem C102_dumped (e : Env) (t u : Tag) (us : List Tag) (F' : Bytes) (ht : ∀ a ∈ t.atoms, Storable a)
    (hus : ∀ u ∈ us, Saveable e [] (dumpFile t.atoms) u) (hu : Saveable e [] (dumpFile t.atoms) u)
    (h32 : (ilstBox t.atoms).ser.length < 2^31) (h : Saves e 0 (dumpTag e t).1 (us ++ [u]) F') :
    F' = (dumpTag e u).1 ∧ (u.atoms = t.atoms → F' = (dumpTag e t).1) := by
  have hm : ∀ A, (ilstBox A).ser.length < 2^31 → (newMoov A).ser.length + 8 < 2^32 := by
    intro A hA
    have a1 : (newMeta A).ser.length = 4 + hdlrBox.ser.length + (ilstBox A).ser.length := by
      simp [newMeta, Meta.ser, serL_cons, serL_nil]; omega
    have a2 : (newUdta A).ser.length = (Kid.box (cc 'm' 'e' 't' 'a') Meta.ser (metaKid (newMeta A))).ser.length := by
      simp [newUdta, Udta.ser, serL_cons, serL_nil]
    have a3 : (newMoov A).ser.length = (udtaKid (newUdta A)).box.ser.length := by
      simp [newMoov, Moov.ser, serL_cons, serL_nil]
    have hl : ∀ b : Box, b.headLen ≤ 16 := fun b => by unfold Box.headLen; split <;> omega
    rw [Box.ser_length] at a2 a3
    have h1 := hl (Kid.box (cc 'm' 'e' 't' 'a') Meta.ser (metaKid (newMeta A)))
    have h2 := hl (udtaKid (newUdta A)).box
    have h3 : (Kid.box (cc 'm' 'e' 't' 'a') Meta.ser (metaKid (newMeta A))).body = (newMeta A).ser := rfl
    have h4 : (udtaKid (newUdta A)).box.body = (newUdta A).ser := rfl
    have h33 : hdlrBox.ser.length = 33 := by decide +kernel
    rw [h3] at a2; rw [h4] at a3
    omega
  have hd : ∀ t : Tag, (∀ a ∈ t.atoms, Storable a) → (dumpTag e t).1 = (dumpFile t.atoms).ser := fun t h => by
    rw [C28_dump e t h]
  rw [hd t ht] at h
  obtain ⟨F1, h1, h2⟩ := C102_history e [] (dumpFile t.atoms) us u hus hu
  have h3 := hu.toWritable.save
  rw [dumpFile_put (C48_sameForm _ _ h32 hu.small) (hm _ h32) (hm _ hu.small)] at h3
  have h4 : F' = (dumpFile u.atoms).ser := by
    rw [show F' = F1 from h.det h1, h2.det (.cons h3 .nil)]; rfl
  refine ⟨by rw [h4, hd u hu.store], fun he => by rw [h4, he, hd t ht]⟩

theorem fileW_saveable : Saveable env0 [] fileW { tagEx with atoms := atomsW } := ⟨fileW_rewritable, by decide +kernel⟩

theorem fileW_saveable_nil : Saveable env0 [] fileW { tagEx with atoms := [] } := ⟨fileW_rewritable_nil, by decide +kernel⟩

theorem tagEx_store : ∀ a ∈ tagEx.atoms, Storable a := by
  have hb : ∀ a ∈ tagEx.atoms, (entryOf a).box.Fits := by decide +kernel
  intro a ha
  refine ⟨?_, hb a ha⟩
  simp only [tagEx, List.mem_cons, List.not_mem_nil, or_false] at ha
  rcases ha with rfl | rfl <;> simp [noUtf16Text]

theorem fileW_saveable_old : Saveable env0 [] fileW tagEx where
  wf := fileW_WF
  fit := fileW_writable.fit
  store := tagEx_store
  old := fileW_writable.old
  new := by decide +kernel
  pos := by decide +kernel
  tables := fileW_writable.tables
  fits := putFits_of_small (by decide +kernel)
  fit' := ⟨by decide +kernel, by decide +kernel, by decide +kernel⟩
  range := fun _ => fileW_inRange _ (by decide +kernel)
  small := by decide +kernel

/-- **C102.** In general a file is not restored: in this one the item list was written by another program, with free space. -/
theorem C102_not_always : ∃ (e : Env) (f : File) (t u : Tag) (F' : Bytes), Saveable e [] f u ∧ Saveable e [] f t ∧ f.Content t ∧
    readTag e f.ser 0 = .ok t ∧ Saves e 0 f.ser [u, t] F' ∧ F' ≠ f.ser := by
  refine ⟨env0, fileW, tagEx, { tagEx with atoms := atomsW }, (writeTag env0 fileW.ser 0 tagEx).2, fileW_saveable, fileW_saveable_old,
    fileW_content, by decide +kernel, ?_, by decide +kernel⟩
  obtain ⟨F', h1, h2⟩ := C102_history env0 [] fileW [{ tagEx with atoms := atomsW }] tagEx
    (by intro u hu; rw [List.mem_singleton] at hu; exact hu ▸ fileW_saveable) fileW_saveable_old
  have h3 := h2.det (.cons fileW_saveable_old.toWritable.save .nil)
  have h4 := fileW_saveable_old.toWritable.save
  rw [show (writeTag env0 fileW.ser 0 tagEx).2 = F' from by rw [h3]; exact congrArg Prod.snd h4]
  exact h1

/-- Neither is a file without an item list: an empty one is left behind. -/
example : readTag env0 (bare []).ser 0 = .ok { tagEx with info := { duration := some 1666666666 }, atoms := [] } ∧
    (writeTag env0 (writeTag env0 (bare []).ser 0 { tagEx with atoms := atomsW }).2 0 { tagEx with atoms := [] }).2.length
      = (bare []).ser.length + 61 := by decide +kernel

/-- The condition of `C102_iff` holds of a saved and of a dumped file, and does not hold of this one. -/
example : (fileW.put atomsW).moov.Holds atomsW ∧ (dumpFile atomsW).moov.Holds atomsW ∧ ¬ fileW.moov.Holds tagEx.atoms := by
  refine ⟨holds_put fileW_writable.tables, holds_dump _, fun h => ?_⟩
  rw [← put_self fileW_saveable_old.tables] at h
  exact absurd (congrArg File.ser h) (by decide +kernel)

/-- The hypotheses of C102 hold of this history: two other tags are saved in between. The file is one that has been saved. -/
example : ∃ F', Saves env0 0 (writeTag env0 fileW.ser 0 tagEx).2 ([{ tagEx with atoms := atomsW }, { tagEx with atoms := [] }] ++ [tagEx]) F' ∧
    F' = (writeTag env0 fileW.ser 0 tagEx).2 := by
  have h0 := fileW_saveable_old.toWritable.save
  have hus : ∀ u ∈ [{ tagEx with atoms := atomsW }, { tagEx with atoms := [] }], Saveable env0 [] fileW u := by
    intro u hu
    simp only [List.mem_cons, List.not_mem_nil, or_false] at hu
    rcases hu with rfl | rfl
    · exact fileW_saveable
    · exact fileW_saveable_nil
  have h1 := saves_from hus fileW_saveable_old tagEx fileW_saveable_old
  have h2 : (writeTag env0 fileW.ser 0 tagEx).2 = [] ++ (fileW.put tagEx.atoms).ser := congrArg Prod.snd h0
  rw [h2]
  exact ⟨_, h1, C102_saved env0 [] fileW _ tagEx _ _ hus fileW_saveable_old h0 h1⟩

/-- The hypotheses of `C102_dumped`: a tag is dumped, emptied and saved, and then restored. -/
theorem dumpEx_saveable (t : Tag) (h : t = tagEx ∨ t = { tagEx with atoms := [] }) : Saveable env0 [] (dumpFile tagEx.atoms) t := by
  have hw := dumpFile_WF tagEx.atoms
  rcases h with rfl | rfl
  all_goals exact
    { wf := hw
      fit := ⟨by decide +kernel, by decide +kernel, by decide +kernel⟩
      store := by first | exact tagEx_store | simp
      old := by decide +kernel
      new := by decide +kernel
      pos := by decide +kernel
      tables := fun ⟨b, hb, _⟩ => by cases hb
      fits := putFits_of_small (by decide +kernel)
      fit' := ⟨by decide +kernel, by decide +kernel, by decide +kernel⟩
      range := fun ⟨b, hb, _⟩ => by cases hb
      small := by decide +kernel }

example : ∃ F', Saves env0 0 (dumpTag env0 tagEx).1 ([{ tagEx with atoms := [] }] ++ [tagEx]) F' ∧ F' = (dumpTag env0 tagEx).1 := by
  have hus : ∀ u ∈ [{ tagEx with atoms := [] }], Saveable env0 [] (dumpFile tagEx.atoms) u :=
    fun u hu => dumpEx_saveable u (.inr (List.mem_singleton.mp hu))
  obtain ⟨F', h, -⟩ := C102_history env0 [] (dumpFile tagEx.atoms) _ tagEx hus (dumpEx_saveable _ (.inl rfl))
  have hd : (dumpTag env0 tagEx).1 = [] ++ (dumpFile tagEx.atoms).ser := congrArg Prod.fst (C28_dump env0 tagEx fileW_saveable_old.store)
  have h' : Saves env0 0 (dumpTag env0 tagEx).1 ([{ tagEx with atoms := [] }] ++ [tagEx]) F' := by rw [hd]; exact h
  exact ⟨F', h', (C102_dumped env0 tagEx tagEx _ F' fileW_saveable_old.store hus (dumpEx_saveable _ (.inl rfl)) (by decide +kernel) h').2 rfl⟩

end Mp4.Props
