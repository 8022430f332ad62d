import Verif.Proof.Cut
import Verif.Props.Write
/-
C74: writing a tag to a file of which the end is missing.
-/
namespace Mp4.Props
open Mp4 Spec

/-- Without the atoms `C` at the end. -/
theorem Writable.front {e X f atoms} (h : Writable e X f atoms) {A C : List Box} {b : Box} (hp : f.post = A ++ b :: C)
    (hm : f.MediaBehind → ∃ x ∈ A ++ [b], x.fc = cc 'm' 'd' 'a' 't') :
    Writable e X { f with post := A ++ [b] } atoms ∧ ({ f with post := A ++ [b] } : File).ser ++ serL id C = f.ser ∧
      ({ f with post := A ++ [b] } : File).put atoms = { f.put atoms with post := A ++ [b] } ∧
      (({ f with post := A ++ [b] } : File).put atoms).ser ++ serL id C = (f.put atoms).ser := by
  have hiff : ({ f with post := A ++ [b] } : File).MediaBehind ↔ f.MediaBehind := by
    constructor
    · rintro ⟨x, hx, hfc⟩
      refine ⟨x, ?_, hfc⟩
      rw [hp]
      have hx : x ∈ A ++ [b] := hx
      simp only [List.mem_append, List.mem_cons, List.not_mem_nil, or_false] at hx ⊢
      rcases hx with h | h
      · exact .inl h
      · exact .inr (.inl h)
    · intro hb
      obtain ⟨x, hx, hfc⟩ := hm hb
      exact ⟨x, hx, hfc⟩
  have hput : ({ f with post := A ++ [b] } : File).put atoms = { f.put atoms with post := A ++ [b] } := by
    unfold File.put
    simp only [hiff]
    rfl
  have hser : ({ f with post := A ++ [b] } : File).ser ++ serL id C = f.ser := by
    simp only [File.ser, hp, serL_append, serL_cons, serL_nil, List.append_assoc, List.append_nil]
    rfl
  have hser' : (({ f with post := A ++ [b] } : File).put atoms).ser ++ serL id C = (f.put atoms).ser := by
    rw [hput]
    have : (f.put atoms).post = A ++ b :: C := hp
    simp only [File.ser, this, serL_append, serL_cons, serL_nil, List.append_assoc, List.append_nil]
    rfl
  have hl := congrArg List.length hser
  have hl' := congrArg List.length hser'
  rw [List.length_append] at hl hl'
  have h1 := h.fit.pos
  have h2 := h.fit.len
  have h3 := h.fit.fuel
  have h4 := h.old
  have h5 := h.new
  have h6 := h.pos
  rw [List.length_append] at h1 h2 h3 h4 h5 h6
  refine ⟨⟨?_, ⟨?_, ?_, ?_⟩, h.store, ?_, ?_, ?_, fun hb => h.tables (hiff.mp hb)⟩, hser, hput, hser'⟩
  · obtain ⟨w1, w2, w3, w4, w5⟩ := h.wf
    refine ⟨w1, w2, w3, w4, fun x hx => w5 x ?_⟩
    rw [hp]
    have hx : x ∈ A ++ [b] := hx
    simp only [List.mem_append, List.mem_cons, List.not_mem_nil, or_false] at hx ⊢
    rcases hx with h | h
    · exact .inl h
    · exact .inr (.inl h)
  all_goals rw [List.length_append]; omega

/-- **C74.** The end `B` of a file is missing: the atoms `C`, and a part of the content of the atom `b` in front of them. No
`mdat` atom is missing if there is one behind the movie atom. Then a tag can be written, and with `B` appended the result is
that of writing the tag to the complete file. -/
theorem C74_incomplete (e : Env) (X : Bytes) (f : File) (atoms : List AtomData) (h : Writable e X f atoms) (F B : Bytes)
    (hs : X ++ f.ser = F ++ B) (A C : List Box) (b : Box) (hp : f.post = A ++ b :: C)
    (hB : (serL id C).length ≤ B.length) (hB' : B.length ≤ b.body.length + (serL id C).length)
    (hm : f.MediaBehind → ∃ x ∈ A ++ [b], x.fc = cc 'm' 'd' 'a' 't') :
    ∃ s s', writeTagTo e F X.length atoms = (.ok (), s) ∧ writeTagTo e (X ++ f.ser) X.length atoms = (.ok (), s') ∧
      s'.file = s.file ++ B := by
  obtain ⟨hw, h1, -, h2⟩ := h.front hp hm
  obtain ⟨s', g1, g2, -⟩ := h.run
  have hsp : (X ++ ({ f with post := A ++ [b] } : File).ser) ++ serL id C
      = (F ++ B.take (B.length - (serL id C).length)) ++ B.drop (B.length - (serL id C).length) := by
    rw [List.append_assoc, h1, hs, List.append_assoc, List.take_append_drop]
  obtain ⟨i1, i2⟩ := List.append_inj' hsp (by rw [List.length_drop]; omega)
  obtain ⟨s, k1, k2, -⟩ := writeTagTo_cut hw.fit hw.wf hw.store hw.old hw.new hw.pos hw.tables i1 (A := A) (b := b) rfl
    (by rw [List.length_take]; omega)
  refine ⟨s, s', k1, g1, ?_⟩
  rw [g2, ← h2, ← List.append_assoc, k2]
  refine (congrArg _ i2).trans ?_
  rw [List.append_assoc, List.take_append_drop]

/-- **C74.** Reading the incomplete file that was written to returns the items. -/
theorem C74_read (e : Env) (X : Bytes) (f : File) (t u : Tag) (h : Writable e X f u.atoms) (hfit : f.PutFits u.atoms)
    (hF : Fit e (X ++ (f.put u.atoms).ser)) (hv : ∀ a ∈ u.atoms, Visible a) (hd : u.NoDup) (hc : f.Content t) (F B : Bytes)
    (hs : X ++ f.ser = F ++ B) (A C : List Box) (b : Box) (hp : f.post = A ++ b :: C)
    (hB : (serL id C).length ≤ B.length) (hB' : B.length ≤ b.body.length + (serL id C).length)
    (hm : f.MediaBehind → ∃ x ∈ A ++ [b], x.fc = cc 'm' 'd' 'a' 't') :
    readTag e F X.length = .ok t ∧ ∃ F', writeTag e F X.length u = (.ok (), F') ∧
      readTag e F' X.length = .ok { ftyp := t.ftyp, info := t.info, atoms := u.atoms } := by
  obtain ⟨s, s', h1, h2, h3⟩ := C74_incomplete e X f u.atoms h F B hs A C b hp hB hB' hm
  have hX : ∀ g : File, g.post = f.post → ∀ G, X ++ g.ser = G ++ B →
      G = X ++ ({ g with post := [] } : File).ser ++ (G.drop (X ++ ({ g with post := [] } : File).ser).length) := by
    intro g hg G hG
    have hser : X ++ g.ser = (X ++ ({ g with post := [] } : File).ser) ++ serL id g.post := by
      simp only [File.ser, serL_nil, List.append_nil, List.append_assoc]
      rfl
    have hpl : B.length ≤ (serL id g.post).length := by
      rw [hg, hp, serL_append, serL_cons]
      simp only [List.length_append, id, Box.ser_length]
      omega
    have hl := congrArg List.length (hG.symm.trans hser)
    simp only [List.length_append] at hl
    have h := congrArg (List.take (X ++ ({ g with post := [] } : File).ser).length) (hG.symm.trans hser)
    rw [List.take_left, List.take_append_of_le_length (by rw [List.length_append]; omega)] at h
    have := List.take_append_drop (X ++ ({ g with post := [] } : File).ser).length G
    rw [h] at this
    exact this.symm
  have hread : ∀ (g : File) (t' : Tag), g.WF → g.post = f.post → g.Content t' → Fit e (X ++ g.ser) → ∀ G, X ++ g.ser = G ++ B →
      readTag e G X.length = .ok t' := by
    intro g t' hw hg hc' hf G hG
    have hl := congrArg List.length hG
    rw [List.length_append (as := G)] at hl
    rw [hX g hg G hG]
    refine read_spec ?_ ⟨hw.1, hw.2.1, hw.2.2.1, hw.2.2.2.1, fun b hb => absurd hb (by simp)⟩ hc'
    rw [← hX g hg G hG]
    exact ⟨by have := hf.pos; omega, by have := hf.len; omega, by have := hf.fuel; omega⟩
  refine ⟨hread f t h.wf rfl hc h.fit F hs, s.file, by rw [writeTag, h1], ?_⟩
  obtain ⟨s'', k1, k2, -⟩ := h.run
  rw [h2] at k1
  injection k1 with _ k1
  have hc' := put_content hc (ilst_content (fun a ha => ⟨(h.store a ha).2, hv a ha⟩))
  rw [group_of_nodup hd] at hc'
  exact hread (f.put u.atoms) _ (put_WF h.wf h.tables hfit) rfl hc' hF s.file (by rw [← k2, ← k1, h3])

/-- **C74.** If a part of the head of `b` is missing, too, this is reported and nothing is written. -/
theorem C74_head (e : Env) (X : Bytes) (f : File) (atoms : List AtomData) (hw : f.WF) (hF : Fit e (X ++ f.ser)) (F B : Bytes)
    (hs : X ++ f.ser = F ++ B) (A C : List Box) (b : Box) (hp : f.post = A ++ b :: C)
    (hB : b.body.length + (serL id C).length < B.length) (hB' : B.length < b.ser.length + (serL id C).length) :
    ∃ s, writeTagTo e F X.length atoms = (.err .io, s) ∧ s.file = F ∧ s.trace = [] := by
  have hser : ({ f with post := A ++ [b] } : File).ser ++ serL id C = f.ser := by
    simp only [File.ser, hp, serL_append, serL_cons, serL_nil, List.append_assoc, List.append_nil]
    rfl
  have hl := congrArg List.length hser
  rw [List.length_append] at hl
  have hsp : (X ++ ({ f with post := A ++ [b] } : File).ser) ++ serL id C
      = (F ++ B.take (B.length - (serL id C).length)) ++ B.drop (B.length - (serL id C).length) := by
    rw [List.append_assoc, hser, hs, List.append_assoc, List.take_append_drop]
  obtain ⟨i1, i2⟩ := List.append_inj' hsp (by rw [List.length_drop]; omega)
  have h1 := hF.pos
  have h2 := hF.len
  have h3 := hF.fuel
  rw [List.length_append] at h1 h2 h3
  obtain ⟨w1, w2, w3, w4, w5⟩ := hw
  refine writeTagTo_cut_head (f := { f with post := A ++ [b] }) ⟨?_, ?_, ?_⟩ ⟨w1, w2, w3, w4, fun x hx => w5 x ?_⟩ i1 rfl
    (by rw [List.length_take]; omega) (by rw [List.length_take]; omega)
  · rw [List.length_append]; omega
  · rw [List.length_append]; omega
  · rw [List.length_append]; omega
  · rw [hp]
    have hx : x ∈ A ++ [b] := hx
    simp only [List.mem_append, List.mem_cons, List.not_mem_nil, or_false] at hx ⊢
    rcases hx with h | h
    · exact .inl h
    · exact .inr (.inl h)

/-- The `mdat` of the file (11 bytes) without its last two bytes, and without half of its head. -/
example : (writeTagTo env0 fileW.ser 0 atomsW).2.file
      = (writeTagTo env0 (fileW.ser.take 507) 0 atomsW).2.file ++ fileW.ser.drop 507 ∧
    (writeTagTo env0 (fileW.ser.take 507) 0 atomsW).1 = .ok () ∧
    (writeTagTo env0 (fileW.ser.take 502) 0 atomsW).1 = .err .io ∧
    (writeTagTo env0 (fileW.ser.take 502) 0 atomsW).2.file = fileW.ser.take 502 := by decide +kernel

/-- The hypotheses hold of this example. -/
example : ∃ b, fileW.post = [] ++ b :: [] ∧ b.body.length = 3 ∧ b.fc = cc 'm' 'd' 'a' 't' ∧ fileW.MediaBehind ∧ fileW.ser.length = 509 :=
  ⟨_, rfl, by decide +kernel, by decide +kernel, by decide +kernel, by decide +kernel⟩

/-- If the whole `mdat` is missing, the chunk offsets are not adjusted, and appending it does not yield what writing to the
complete file does. -/
example : (writeTagTo env0 (fileW.ser.take 498) 0 atomsW).1 = .ok () ∧
    (writeTagTo env0 fileW.ser 0 atomsW).2.file ≠ (writeTagTo env0 (fileW.ser.take 498) 0 atomsW).2.file ++ fileW.ser.drop 498 := by
  decide +kernel

end Mp4.Props
