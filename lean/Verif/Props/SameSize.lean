import Verif.Proof.Context
import Verif.Proof.TagMap
import Verif.Props.InPlace
import Verif.Proof.Boundary
/-
C93: a change that keeps the size of what is changed stays local.
-/
namespace Mp4.Props
open Mp4 Spec

/-- Items of the same size: the file can be written with them if it can be with the others. -/
theorem Writable.sameSize {e X f A B} (h : Writable e X f A) (hl : (ilstBox B).ser.length = (ilstBox A).ser.length) (hB : ∀ a ∈ B, Storable a) :
    Writable e X f B ∧ SameForm A B := by
  obtain ⟨P, S, hp⟩ := around_file (ilstBox A).ser.length f
  have h1 : (f.fill (ilstBox A)).ser = P ++ (ilstBox A).ser ++ S := hp _ rfl
  have h2 : (f.fill (ilstBox B)).ser = P ++ (ilstBox B).ser ++ S := hp _ hl
  have h3 : (X ++ (f.put B).ser).length = (X ++ (f.put A).ser).length := by
    rw [← fill_put, ← fill_put, h1, h2]
    simp only [List.length_append, hl]
  have h4 : (newMeta B).ser.length = (newMeta A).ser.length := by
    simp [newMeta, Meta.ser, serL, hl]
  have h5 : (newUdta B).ser.length = (newUdta A).ser.length := by
    simp only [newUdta, metaKid, Udta.ser, serL_cons, serL_nil, Kid.box, Box.ser_length, Box.headLen, List.length_append, h4]
  exact ⟨⟨h.wf, h.fit, hB, h.old, by rw [h3]; exact h.new, by rw [h3]; exact h.pos, h.tables⟩, by rw [h4], by rw [h5]⟩

/-- **C93**: saving items of the same size as those stored changes nothing but the bytes of the item list. -/
theorem C93_list (e : Env) (X : Bytes) (f : File) (A B : List AtomData) (h : Rewritable e X f A) (hB : ∀ a ∈ B, Storable a)
    (hl : (ilstBox B).ser.length = (ilstBox A).ser.length) :
    ∃ P S s1 s2, writeTagTo e (X ++ f.ser) X.length A = (.ok (), s1) ∧ s1.file = P ++ (ilstBox A).ser ++ S ∧
      writeTagTo e s1.file X.length B = (.ok (), s2) ∧ s2.file = P ++ (ilstBox B).ser ++ S := by
  obtain ⟨hw, hf⟩ := h.toWritable.sameSize hl hB
  obtain ⟨s1, s2, s, h1, h2, h3, h4⟩ := C48_last_wins e X f A B h hw hf
  obtain ⟨P, S, hp⟩ := (Around.refl (fun l => (ilstBox l).ser.length = (ilstBox A).ser.length) (fun l => (ilstBox l).ser)).put (fun _ h => h) X f
  obtain ⟨s1', h1', h5, -⟩ := h.toWritable.run
  obtain ⟨s', h3', h6, -⟩ := hw.run
  rw [h1] at h1'; rw [h3] at h3'
  obtain rfl := (Prod.mk.inj h1').2
  obtain rfl := (Prod.mk.inj h3').2
  exact ⟨P, S, s1, s2, h1, h5.trans (hp A rfl), h2, h4.trans (h6.trans (hp B hl))⟩

theorem noUtf16Text_same {d d' : Data} (hc : typeCode d' = typeCode d) (hl : (payload d').length = (payload d).length) (h : noUtf16Text d) :
    noUtf16Text d' := by
  cases d' with
  | utf16 s' =>
    cases d with
    | utf16 s =>
      have hs : s = [] := h
      subst hs
      cases s' with
      | nil => rfl
      | cons c s' =>
        exfalso
        have h1 : (payload (.utf16 (c :: s'))).length = 0 := hl
        have h2 : utf16Char c ≠ [] := by unfold utf16Char; split <;> simp
        simp only [payload, utf16be, utf16, List.flatMap_cons] at h1
        cases hu : utf16Char c with
        | nil => exact h2 hu
        | cons u us => rw [hu] at h1; simp [Spec.be16] at h1
    | _ => exact absurd hc (by simp [typeCode])
  | _ => trivial

/-- The items after the change can be saved as well. -/
theorem value_same {e : Env} {X : Bytes} {f : File} {L R : List AtomData} {i : DataIdent} {ds es : List Data} {d d' : Data}
    (h : Rewritable e X f (L ++ ⟨i, ds ++ d :: es⟩ :: R)) (hc : typeCode d' = typeCode d) (hl : (payload d').length = (payload d).length) :
    Writable e X f (L ++ ⟨i, ds ++ d' :: es⟩ :: R) ∧ SameForm (L ++ ⟨i, ds ++ d :: es⟩ :: R) (L ++ ⟨i, ds ++ d' :: es⟩ :: R) := by
  have ha := around_value L R i ds es (typeCode d) (payload d).length
  obtain ⟨m, hm⟩ := ha.length (fun _ h => h.2)
  have hl1 := hm d ⟨rfl, rfl⟩
  have hl2 := hm d' ⟨hc, hl⟩
  have hst := h.store ⟨i, ds ++ d :: es⟩ (by simp)
  have hB : ∀ a ∈ L ++ ⟨i, ds ++ d' :: es⟩ :: R, Storable a := by
    intro a ha
    simp only [List.mem_append, List.mem_cons] at ha
    rcases ha with ha | rfl | ha
    · exact h.store a (by simp [ha])
    · refine ⟨?_, ?_⟩
      · intro x hx
        have hx' : x ∈ ds ++ d' :: es := hx
        simp only [List.mem_append, List.mem_cons] at hx'
        rcases hx' with hx' | rfl | hx'
        · exact hst.1 x (by simp [hx'])
        · exact noUtf16Text_same hc hl (hst.1 d (by simp))
        · exact hst.1 x (by simp [hx'])
      · obtain ⟨k, hk⟩ := (around_entry i ds es (typeCode d) (payload d).length).length (fun _ h => h.2)
        have h1 := hk d ⟨rfl, rfl⟩
        have h2 := hk d' ⟨hc, hl⟩
        have he : ∀ a, (entryOf a).box.ext = false := by
          intro a
          unfold entryOf
          split <;> rfl
        have h3 := hst.2 (he _)
        rw [Box.ser_length, Box.headLen, he] at h1 h2
        intro _
        simp only [Bool.false_eq_true, if_false] at h1 h2
        omega
    · exact h.store a (by simp [ha])
  exact h.toWritable.sameSize (hl2.trans hl1.symm) hB

/-- **C93**: if a value is replaced by one of the same type and size, its bytes are replaced and no others. -/
theorem C93_value (e : Env) (X : Bytes) (f : File) (L R : List AtomData) (i : DataIdent) (ds es : List Data) (d d' : Data)
    (h : Rewritable e X f (L ++ ⟨i, ds ++ d :: es⟩ :: R)) (hc : typeCode d' = typeCode d) (hl : (payload d').length = (payload d).length) :
    ∃ P S s1 s2, writeTagTo e (X ++ f.ser) X.length (L ++ ⟨i, ds ++ d :: es⟩ :: R) = (.ok (), s1) ∧ s1.file = P ++ payload d ++ S ∧
      writeTagTo e s1.file X.length (L ++ ⟨i, ds ++ d' :: es⟩ :: R) = (.ok (), s2) ∧ s2.file = P ++ payload d' ++ S := by
  have ha := around_value L R i ds es (typeCode d) (payload d).length
  obtain ⟨hw, hf⟩ := value_same h hc hl
  obtain ⟨s1, s2, s, h1, h2, h3, h4⟩ := C48_last_wins e X f _ _ h hw hf
  obtain ⟨P, S, hp⟩ := ha.put (fun _ h => h.2) X f
  obtain ⟨s1', h1', h5, -⟩ := h.toWritable.run
  obtain ⟨s', h3', h6, -⟩ := hw.run
  rw [h1] at h1'; rw [h3] at h3'
  obtain rfl := (Prod.mk.inj h1').2
  obtain rfl := (Prod.mk.inj h3').2
  exact ⟨P, S, s1, s2, h1, h5.trans (hp d ⟨rfl, rfl⟩), h2, h4.trans (h6.trans (hp d' ⟨hc, hl⟩))⟩

/-- **C93**: setting the only value of an identifier to one of the same type and size, and saving again. -/
theorem C93_set (e : Env) (X : Bytes) (f : File) (t : Tag) (i : Ident) (d d' : Data) (h : Rewritable e X f t.atoms) (hd : t.dataOf i = [d])
    (hc : typeCode d' = typeCode d) (hl : (payload d').length = (payload d).length) :
    ∃ P S, writeTag e (X ++ f.ser) X.length t = (.ok (), P ++ payload d ++ S) ∧
      writeTag e (P ++ payload d ++ S) X.length (t.setData i d') = (.ok (), P ++ payload d' ++ S) := by
  have hs : ∃ L R j, t.atoms = L ++ ⟨j, [] ++ d :: []⟩ :: R ∧ (t.setData i d').atoms = L ++ ⟨j, [] ++ d' :: []⟩ :: R := by
    rcases split_first i.toData t.atoms with hno | ⟨L, a, R, hL, hi, ha⟩
    · rw [Tag.dataOf_eq, valL_not_mem _ _ hno] at hd
      cases hd
    · refine ⟨L, R, a.ident, ?_, ?_⟩
      · rw [Tag.dataOf_eq, hL, valL_append, if_neg hi, valL_cons, if_pos ha] at hd
        rw [hL, List.nil_append, ← hd]
      · rw [Tag.setData, hL, modFirst_split _ _ _ _ _ hi ha]
        rfl
  obtain ⟨L, R, j, h1, h2⟩ := hs
  rw [h1] at h
  obtain ⟨P, S, s1, s2, h3, h4, h5, h6⟩ := C93_value e X f L R j [] [] d d' h hc hl
  refine ⟨P, S, ?_, ?_⟩
  · rw [writeTag, h1, h3, h4]
  · rw [writeTag, h2, ← h4, h5, h6]

/-- What lies between two files that differ in one place. -/
theorem between_part {P v w S H : Bytes} (hl : w.length = v.length) (h : Between (P ++ v ++ S) (P ++ w ++ S) H) :
    ∃ u, H = P ++ u ++ S ∧ Between v w u := by
  obtain ⟨h1, h2⟩ := h
  simp only [List.length_append] at h1
  have hget : ∀ (v : Bytes) (i : Nat), (P ++ v ++ S)[i]? =
      if i < P.length then P[i]? else if i < P.length + v.length then v[i - P.length]? else S[i - P.length - v.length]? := by
    intro v i
    rw [List.append_assoc]
    split
    · rw [List.getElem?_append_left (by omega)]
    · rw [List.getElem?_append_right (by omega)]
      split
      · rw [List.getElem?_append_left (by omega)]
      · rw [List.getElem?_append_right (by omega)]
  refine ⟨(H.drop P.length).take v.length, ?_, ?_, ?_⟩
  · apply List.ext_getElem?
    intro i
    rw [hget]
    simp only [List.length_take, List.length_drop]
    have := h2 i
    rw [hget, hget] at this
    split
    · rename_i hi; simp only [hi, if_true, or_self] at this; exact this
    · rename_i hi
      split
      · rename_i hi'
        rw [List.getElem?_take, if_pos (by omega), List.getElem?_drop]
        congr 1; omega
      · rename_i hi'
        rw [if_neg hi, if_neg hi, if_neg (by omega), if_neg (by omega), hl, or_self] at this
        rw [this]
        congr 1; omega
  · rw [List.length_take, List.length_drop]; omega
  · intro i
    rw [List.getElem?_take]
    by_cases hi : i < v.length
    · have := h2 (P.length + i)
      have h3 : ¬ P.length + i < P.length := by omega
      have h4 : P.length + i < P.length + v.length := by omega
      simp only [hget, h3, h4, hl, if_true, if_false, Nat.add_sub_cancel_left] at this
      rw [if_pos hi, List.getElem?_drop]
      exact this
    · rw [if_neg hi]
      exact .inl (List.getElem?_eq_none (by omega)).symm

/-- **C93**: if the second save is interrupted, whichever calls fail and wherever the process is stopped, also within a call, nothing
but the bytes of the value changes; each of them is that of the old or of the new value. -/
theorem C93_interrupted (fl : Faults) (e : Env) (X : Bytes) (f : File) (L R : List AtomData) (i : DataIdent) (ds es : List Data) (d d' : Data)
    (h : Rewritable e X f (L ++ ⟨i, ds ++ d :: es⟩ :: R)) (hc : typeCode d' = typeCode d) (hl : (payload d').length = (payload d).length) :
    ∃ P S s1, writeTagTo e (X ++ f.ser) X.length (L ++ ⟨i, ds ++ d :: es⟩ :: R) = (.ok (), s1) ∧ s1.file = P ++ payload d ++ S ∧
      ∀ H, H = (writeTagF fl e s1.file X.length (L ++ ⟨i, ds ++ d' :: es⟩ :: R)).2.file ∨
          Crash s1.file (writeTagF fl e s1.file X.length (L ++ ⟨i, ds ++ d' :: es⟩ :: R)).2.trace H →
        ∃ v, H = P ++ v ++ S ∧ Between (payload d) (payload d') v := by
  obtain ⟨hw, hf⟩ := value_same h hc hl
  obtain ⟨P, S, s1, s2, h1, h2, h3, h4⟩ := C93_value e X f L R i ds es d d' h hc hl
  have ha := h.again hw hf
  obtain ⟨s1', h1', h5, -⟩ := h.toWritable.run
  rw [h1] at h1'
  obtain rfl := (Prod.mk.inj h1').2
  obtain ⟨s2', h3', h6, -⟩ := ha.run
  rw [← h5, h3] at h3'
  obtain rfl := (Prod.mk.inj h3').2
  have hg : (f.put (L ++ ⟨i, ds ++ d :: es⟩ :: R)).growth (L ++ ⟨i, ds ++ d' :: es⟩ :: R) = 0 := by
    have := put_length_growth (X := X) (atoms := L ++ ⟨i, ds ++ d' :: es⟩ :: R) ha.tables
    rw [← h5, ← h6, h2, h4] at this
    simp only [List.length_append, hl] at this
    omega
  have hb := C90_bytes fl e X _ _ ha hg
  rw [← h5, ← h6, h2, h4] at hb
  refine ⟨P, S, s1, h1, h2, fun H hH => ?_⟩
  rw [h2] at hH
  rcases hH with rfl | hH
  · exact between_part hl hb.1
  · exact between_part hl (hb.2 H hH)

/-! ### Examples -/

def tagW : Tag := { tagEx with atoms := atomsW }

theorem tagW_rewritable : Rewritable env0 [] fileW tagW.atoms := fileW_rewritable

/-- The title is replaced by another one of six bytes, then by three letters of two bytes each. -/
example : tagW.dataOf (.fourcc (cc '©' 'n' 'a' 'm')) = [.utf8 ['l', 'o', 'n', 'g', 'e', 'r']] ∧
    payload (.utf8 ['ä', 'ö', 'ü']) = [0xc3, 0xa4, 0xc3, 0xb6, 0xc3, 0xbc] ∧
    ((writeTag env0 (writeTag env0 fileW.ser 0 tagW).2 0 (tagW.setData (.fourcc (cc '©' 'n' 'a' 'm')) (.utf8 ['ä', 'ö', 'ü']))).2.zipIdx.filter
      fun x => (writeTag env0 fileW.ser 0 tagW).2[x.2]? ≠ some x.1).map (·.1) = [0xc3, 0xa4, 0xc3, 0xb6, 0xc3, 0xbc] := by decide +kernel

example : ∃ P S, writeTag env0 fileW.ser 0 tagW = (.ok (), P ++ utf8 ['l', 'o', 'n', 'g', 'e', 'r'] ++ S) ∧
    writeTag env0 (P ++ utf8 ['l', 'o', 'n', 'g', 'e', 'r'] ++ S) 0 (tagW.setData (.fourcc (cc '©' 'n' 'a' 'm')) (.utf8 ['ä', 'ö', 'ü']))
      = (.ok (), P ++ utf8 ['ä', 'ö', 'ü'] ++ S) :=
  C93_set env0 [] fileW tagW (.fourcc (cc '©' 'n' 'a' 'm')) (.utf8 ['l', 'o', 'n', 'g', 'e', 'r']) (.utf8 ['ä', 'ö', 'ü']) tagW_rewritable
    (by decide +kernel) rfl (by decide +kernel)

/-- A shorter title changes other bytes as well. -/
example : ((writeTag env0 (writeTag env0 fileW.ser 0 tagW).2 0 (tagW.setData (.fourcc (cc '©' 'n' 'a' 'm')) (.utf8 ['a']))).2.zipIdx.filter
      fun x => (writeTag env0 fileW.ser 0 tagW).2[x.2]? ≠ some x.1).length > 6 := by decide +kernel

/-- When the process is stopped within the call that writes the items, the title may consist of the beginning of the new and the end of
the old one. -/
def titleQ : Tag := tagW.setData (.fourcc (cc '©' 'n' 'a' 'm')) (.utf8 ['q', 'w', 'e', 'r', 't', 'y'])

def fileQ : Bytes := (writeTag env0 fileW.ser 0 tagW).2

example : ∃ H, Crash fileQ (writeTagF Faults.none env0 fileQ 0 titleQ.atoms).2.trace H ∧
    readTag env0 H 0 = .ok (tagW.setData (.fourcc (cc '©' 'n' 'a' 'm')) (.utf8 ['q', 'w', 'e', 'g', 'e', 'r'])) := by
  have key : (writeTagF Faults.none env0 fileQ 0 titleQ.atoms).2.trace
        = (writeTagF Faults.none env0 fileQ 0 titleQ.atoms).2.trace.take 7 ++ .write 346 (ilstBox titleQ.atoms).ser ::
          (writeTagF Faults.none env0 fileQ 0 titleQ.atoms).2.trace.drop 8 ∧
      readTag env0 (Op.apply (((writeTagF Faults.none env0 fileQ 0 titleQ.atoms).2.trace.take 7).foldl Op.apply fileQ)
        (.write 346 ((ilstBox titleQ.atoms).ser.take 35))) 0
        = .ok (tagW.setData (.fourcc (cc '©' 'n' 'a' 'm')) (.utf8 ['q', 'w', 'e', 'g', 'e', 'r'])) := by decide +kernel
  exact ⟨_, .during _ _ _ _ key.1 (.write _ _ _ 35), key.2⟩

end Mp4.Props
