import Verif.Proof.Unique
import Verif.Props.Stuck
import Verif.Props.Multi
import Verif.Props.Sane
/-
C78: what the search for the atoms accepts. C79: damage in the movie atom spreads.
-/
namespace Mp4.Props
open Mp4 Spec

/-! ### C78 -/

/-- **C78.** The search succeeds and ends at the end of the input exactly if the input is a file: atoms that fill it, and in the
movie atoms atoms that fill their containers. -/
theorem C78_iff (e : Env) (F : Bytes) (p : Nat) (hl : F.length ≤ e.maxPos) (hm : e.maxPos < 2^63) (hf : F.length < e.fuel)
    (hs : SaneSizes F) : (∃ r, findTop e F p = .ok (r, F.length)) ↔ Accepted F p := by
  have hfit : Fit e F := ⟨hl, by omega, hf⟩
  constructor
  · rintro ⟨r, h⟩
    exact (findTop_fills ⟨hfit, hm, hs⟩ _ _ h).2 rfl
  · rintro ⟨hp, h⟩
    have hX : (F.take p).length = p := by rw [List.length_take]; omega
    rcases h with ⟨f, hw, he⟩ | ⟨g, hw, he⟩
    · have := findTop_at (e := e) (X := F.take p) (p := p) (by rw [← he]; exact hfit) hw hX
      rw [← he] at this
      have hlen := congrArg List.length he
      rw [List.length_append, hX] at hlen
      exact ⟨_, by rw [this, ← hlen]⟩
    · rw [movies_ser] at he
      have := findTop_movies (e := e) (X := F.take p) (by rw [← he]; exact hfit) hw
      rw [← he, hX] at this
      have hlen := congrArg List.length he
      rw [List.length_append, hX] at hlen
      exact ⟨_, by rw [this, ← hlen]⟩

/-- **C78.** Otherwise it fails, and writing reports that and does nothing; or the last atom that it visits runs past the end of the
input. -/
theorem C78_rejected (e : Env) (F : Bytes) (p : Nat) (atoms : List AtomData) (hl : F.length ≤ e.maxPos) (hm : e.maxPos < 2^63)
    (hf : F.length < e.fuel) (hs : SaneSizes F) (h : ¬ Accepted F p) :
    (∃ k, (writeTagTo e F p atoms).1 = .err k ∧ (writeTagTo e F p atoms).2.file = F ∧ (writeTagTo e F p atoms).2.trace = []) ∨
    ∃ r q, findTop e F p = .ok (r, q) ∧ F.length < q := by
  have hfit : Fit e F := ⟨hl, by omega, hf⟩
  have ht := findTop_tot (pn := False) ⟨hfit, hm, hs⟩ p
  unfold Tot at ht
  rcases hr : findTop e F p with ⟨r, q⟩ | k | _ | _ <;> rw [hr] at ht
  · obtain ⟨h1, h2⟩ := findTop_fills ⟨hfit, hm, hs⟩ _ _ hr
    refine .inr ⟨r, q, rfl, ?_⟩
    rcases Nat.lt_or_eq_of_le h1 with h1 | h1
    · exact h1
    · exact absurd (h2 h1.symm) h
  · have : preparePhase atoms e F p = .err k := P.bind_err hr
    exact .inl ⟨k, by rw [writeTagTo, this], by rw [writeTagTo, this], by rw [writeTagTo, this]⟩
  · exact ht.elim
  · exact ht.elim

/-- **C78.** There is only one way to read the input as a file. -/
theorem C78_unique (X F : Bytes) (hF : F.length < 2^63) (f f' : File) (hf : f.WF) (hf' : f'.WF) (h : F = X ++ f.ser)
    (h' : F = X ++ f'.ser) : f = f' ∧ ∀ g : Movies, g.WF → F ≠ X ++ g.ser := by
  have hl : f.ser.length < 2^63 := by
    rw [h, List.length_append] at hF; omega
  refine ⟨file_inj hf hf' hl (List.append_cancel_left (h.symm.trans h')), fun g hg hgF => ?_⟩
  exact file_ne_movies hf hg hl (List.append_cancel_left (h.symm.trans hgF))

/-- What a successful attempt has written. -/
theorem written_file {e : Env} {F : Bytes} {p : Nat} {atoms : List AtomData} {f : File} (hl : F.length ≤ e.maxPos) (hm : e.maxPos < 2^62)
    (hf : F.length < e.fuel) (hst : ∀ a ∈ atoms, Storable a) {s : WSt} (h : writeTagTo e F p atoms = (.ok (), s)) (hp : p ≤ F.length)
    (hw : f.WF) (he : F = F.take p ++ f.ser) (hsi : f.moov.Low) (hg : (F.length : Int) + f.growth atoms ≤ e.maxPos) :
    s.file = F.take p ++ (f.put atoms).ser := by
  have hfit : Fit e F := ⟨hl, by omega, hf⟩
  have hX : (F.take p).length = p := by rw [List.length_take]; omega
  have hlen := congrArg List.length he
  rw [List.length_append] at hlen
  have ht : f.MediaBehind → f.moov.Tables := fun hb => by
    refine ((C77_iff e (F.take p) f atoms ⟨hw, by rw [← he]; exact hfit, hst, by rw [← he]; omega, by rw [← he]; omega, hb⟩
      (by rw [← he]; exact hg) hsi).1).mp ?_
    rw [hX, ← he, h]
  have h1 := put_ser_length (f := f) (atoms := atoms) ht
  have h2 := growth_eq f atoms
  have h3 : (F.take p ++ (f.put atoms).ser).length = (F.take p).length + (f.put atoms).ser.length := List.length_append
  obtain ⟨s', k1, k2, -⟩ := writeTagTo_spec (e := e) (X := F.take p) (f := f) (atoms := atoms) (by rw [← he]; exact hfit) hw hst
    (by rw [← he]; omega) (by omega) (by omega) ht
  rw [hX, ← he, h] at k1
  cases k1
  exact k2

/-- **C78.** Hence, for arbitrary input: if writing succeeds, and no atom runs past the end, then the input is a file, and what is
written is what the theorems about files say (C41 and C76). -/
theorem C78_written (e : Env) (F : Bytes) (p : Nat) (atoms : List AtomData) (hl : F.length ≤ e.maxPos) (hm : e.maxPos < 2^62)
    (hf : F.length < e.fuel) (hs : SaneSizes F) (hst : ∀ a ∈ atoms, Storable a)
    (hq : ∀ r q, findTop e F p = .ok (r, q) → q ≤ F.length) (s : WSt) (h : writeTagTo e F p atoms = (.ok (), s)) :
    (∃ f : File, f.WF ∧ F = F.take p ++ f.ser ∧
      (f.moov.Low → (F.length : Int) + f.growth atoms ≤ e.maxPos → s.file = F.take p ++ (f.put atoms).ser)) ∨
    (∃ g : Movies, g.WF ∧ F = F.take p ++ g.ser ∧
      ((g.byLast.MediaBehind → g.last.Tables) → (F.take p ++ (g.put atoms).ser).length ≤ e.maxPos →
        s.file = F.take p ++ (g.put atoms).ser)) := by
  have hacc : Accepted F p := by
    refine Classical.byContradiction fun hn => ?_
    rcases C78_rejected e F p atoms hl (by omega) hf hs hn with ⟨k, hk, -⟩ | ⟨r, q, h1, h2⟩
    · rw [h] at hk; cases hk
    · have := hq r q h1; omega
  have hfit : Fit e F := ⟨hl, by omega, hf⟩
  obtain ⟨hp, hacc⟩ := hacc
  have hX : (F.take p).length = p := by rw [List.length_take]; omega
  rcases hacc with ⟨f, hw, he⟩ | ⟨g, hw, he⟩
  · exact .inl ⟨f, hw, he, written_file hl hm hf hst h hp hw he⟩
  · refine .inr ⟨g, hw, he, fun ht hg => ?_⟩
    obtain ⟨s', k1, k2, -⟩ := writeTagTo_movies (e := e) (X := F.take p) (g := g) (atoms := atoms) (by rw [← he]; exact hfit) hw hst
      (by rw [← he]; omega) (by omega) hg ht
    rw [hX, ← he, h] at k1
    cases k1
    exact k2

/-- The file of C41 ff. is accepted. -/
example : Accepted fileW.ser 0 := ⟨Nat.zero_le _, .inl ⟨fileW, fileW_WF, rfl⟩⟩

/-- A 64 bit environment with positions below 2^62. -/
def env62 : Env := { env0 with maxPos := 2^62 - 1 }

/-- The hypotheses of C78_written hold of it. -/
example : SaneSizes fileW.ser ∧ (∀ a ∈ atomsW, Storable a) ∧ (∀ r q, findTop env62 fileW.ser 0 = .ok (r, q) → q ≤ fileW.ser.length) ∧
    (writeTagTo env62 fileW.ser 0 atomsW).1 = .ok () := by
  refine ⟨saneB_sound (by decide +kernel), fun a ha => (atomsW_store a ha).1, ?_, by decide +kernel⟩
  have h : (match findTop env62 fileW.ser 0 with
    | .ok (_, q) => decide (q ≤ fileW.ser.length)
    | _ => true) = true := by decide +kernel
  intro r q hr
  rw [hr] at h
  exact of_decide_eq_true h

/-- A `udta` that claims to be longer than the movie atom: the following `mdat` is taken for a part of it, and the search runs into
the end of the input. -/
def longUdta : Bytes :=
  (⟨false, cc 'f' 't' 'y' 'p', []⟩ : Box).ser ++ be32 16 ++ (cc 'm' 'o' 'o' 'v').bytes ++ be32 9 ++ (cc 'u' 'd' 't' 'a').bytes ++
  (⟨false, cc 'm' 'd' 'a' 't', [1, 2, 3]⟩ : Box).ser

theorem not_accepted {F : Bytes} (hl : F.length ≤ env0.maxPos) (hf : F.length < env0.fuel) (hs : saneB F = true)
    (h : (match findTop env0 F 0 with
      | .ok (_, q) => decide (F.length < q)
      | _ => true) = true) : ¬ Accepted F 0 := by
  intro ha
  obtain ⟨r, hr⟩ := (C78_iff env0 F 0 hl (by decide) hf (saneB_sound hs)).mpr ha
  rw [hr] at h
  exact absurd (of_decide_eq_true h) (Nat.lt_irrefl _)

/-- The hypotheses of C78_rejected hold of it. -/
example : SaneSizes longUdta ∧ ¬ Accepted longUdta 0 ∧ writeTag env0 longUdta 0 {} = (.err .io, longUdta) :=
  ⟨saneB_sound (by decide +kernel), not_accepted (by decide +kernel) (by decide +kernel) (by decide +kernel) (by decide +kernel),
    by decide +kernel⟩

/-- The second case of C78_rejected: the end is missing (C74). -/
example : ¬ Accepted (fileW.ser.take 507) 0 ∧ (writeTag env0 (fileW.ser.take 507) 0 {}).1 = .ok () :=
  ⟨not_accepted (by decide +kernel) (by decide +kernel) (by decide +kernel) (by decide +kernel), by decide +kernel⟩

/-! ### C79 -/

/-- **C79**, the full claim: if the atoms of the top level fill the input, one of them is a movie atom, and writing succeeds, then the
other atoms are not changed. -/
def OthersKept : Prop := ∀ (e : Env) (F : Bytes) (p : Nat) (t : Tag) (A : List Box) (m : Box) (B : List Box) (G : Bytes),
  F.length ≤ e.maxPos → e.maxPos < 2^62 → F.length < e.fuel → SaneSizes F → (∀ a ∈ t.atoms, Storable a) →
  TopLevel F p A m B → writeTag e F p t = (.ok (), G) → ∃ m' : Box, m'.fc = cc 'm' 'o' 'o' 'v' ∧ G = F.take p ++ serL id A ++ m'.ser ++ serL id B

/-- The item list claims to be longer than it is by 8 bytes; the media data begins with 4000. -/
def longIlst : Bytes :=
  (⟨false, cc 'f' 't' 'y' 'p', []⟩ : Box).ser ++
  (⟨false, cc 'm' 'o' 'o' 'v', (⟨false, cc 'u' 'd' 't' 'a', (⟨false, cc 'm' 'e' 't' 'a', [0, 0, 0, 0] ++ be32 16 ++ (cc 'i' 'l' 's' 't').bytes⟩
    : Box).ser⟩ : Box).ser⟩ : Box).ser ++ (⟨false, cc 'm' 'd' 'a' 't', be32 4000 ++ [1, 2, 3, 4, 5]⟩ : Box).ser


theorem longIlst_top : TopLevel longIlst 0 [⟨false, cc 'f' 't' 'y' 'p', []⟩]
    ⟨false, cc 'm' 'o' 'o' 'v', (⟨false, cc 'u' 'd' 't' 'a', (⟨false, cc 'm' 'e' 't' 'a', [0, 0, 0, 0] ++ be32 16 ++ (cc 'i' 'l' 's' 't').bytes⟩
      : Box).ser⟩ : Box).ser⟩ [⟨false, cc 'm' 'd' 'a' 't', be32 4000 ++ [1, 2, 3, 4, 5]⟩] :=
  ⟨Nat.zero_le _, by decide +kernel, by decide +kernel, by decide +kernel, by decide +kernel⟩

theorem longIlst_lost : (writeTag env62 longIlst 0 {}).2.drop ((writeTag env62 longIlst 0 {}).2.length -
    (serL id [⟨false, cc 'm' 'd' 'a' 't', be32 4000 ++ [1, 2, 3, 4, 5]⟩]).length) ≠
    serL id [⟨false, cc 'm' 'd' 'a' 't', be32 4000 ++ [1, 2, 3, 4, 5]⟩] := by decide +kernel

theorem longIlst_ok : (writeTag env62 longIlst 0 {}).1 = .ok () := by decide +kernel

/-- **C79** is false: the head of the media data is deleted as if it were a part of the item list, and success is reported. -/
theorem C79_refuted : ¬ OthersKept := by
  intro h
  have h1 := longIlst_ok
  have h2 := longIlst_lost
  rcases hw : writeTag env62 longIlst 0 {} with ⟨o, G⟩
  rw [hw] at h1 h2
  dsimp only at h1 h2
  subst h1
  obtain ⟨m', -, hG⟩ := h env62 longIlst 0 {} _ _ _ G (by decide +kernel) (by decide) (by decide +kernel) (saneB_sound (by decide +kernel))
    (fun a ha => by cases ha) longIlst_top hw
  refine h2 ?_
  rw [hG, List.length_append, Nat.add_sub_cancel, List.drop_left]

/-- **C79**, what holds: it is true if the movie atom, and the containers in it, are filled with atoms. Missing: movie atoms with
contents that do not fit, for which the claim is false (`C79_refuted`). -/
theorem C79_partial (e : Env) (F : Bytes) (p : Nat) (t : Tag) (A : List Box) (m : Box) (B : List Box) (G : Bytes) (hl : F.length ≤ e.maxPos)
    (hm : e.maxPos < 2^62) (hf : F.length < e.fuel) (hs : SaneSizes F) (hst : ∀ a ∈ t.atoms, Storable a) (ht : TopLevel F p A m B)
    (h : writeTag e F p t = (.ok (), G)) (mv : Spec.Moov) (hmv : m.body = mv.ser) (hw : mv.WF) (hsi : mv.Low)
    (hg : (F.length : Int) + ((mv.put id t.atoms).ser.length - mv.ser.length) ≤ e.maxPos) :
    ∃ m' : Box, m'.fc = cc 'm' 'o' 'o' 'v' ∧ G = F.take p ++ serL id A ++ m'.ser ++ serL id B := by
  obtain ⟨hp, hF, ⟨hm1, hm2⟩, hA, hB⟩ := ht
  have hX : (F.take p).length = p := by rw [List.length_take]; omega
  obtain ⟨ext, fc, body⟩ := m
  dsimp only at hm1 hmv
  subst hm1 hmv
  -- the first atom
  have hft : ∃ b : Box, ∃ s, ∃ pre, A = b :: pre ∧ b.fc = cc 'f' 't' 'y' 'p' ∧ b.body = utf8 s := by
    have h1 : ∃ x, preparePhase t.atoms e F p = .ok x := by
      rw [writeTag, writeTagTo] at h
      rcases hc : preparePhase t.atoms e F p with x | k | _ | _ <;> rw [hc] at h
      · exact ⟨x, rfl⟩
      · cases h
      · cases h
      · cases h
    obtain ⟨x, h1⟩ := h1
    obtain ⟨r, q, h2, -⟩ := P.bind_inv h1
    obtain ⟨s, q', h3, -⟩ := P.bind_inv h2
    obtain ⟨-, b, b1, b2, b3, b4, -⟩ := parseFtyp_fills ⟨⟨hl, by omega, hf⟩, by omega, hs⟩ _ _ h3
    have hd := b4.drop
    rw [show F.drop p = serL id A ++ ((⟨ext, cc 'm' 'o' 'o' 'v', mv.ser⟩ : Box).ser ++ serL id B) by
      conv => lhs; rw [hF]
      rw [List.append_assoc, List.append_assoc, List.drop_append, List.drop_eq_nil_of_le (by omega), hX, Nat.sub_self]; rfl] at hd
    have hlt : (serL id A ++ ((⟨ext, cc 'm' 'o' 'o' 'v', mv.ser⟩ : Box).ser ++ serL id B)).length < 2^63 := by
      have := congrArg List.length hF
      simp only [List.length_append] at this ⊢
      omega
    cases A with
    | nil =>
      have := (box_ser_inj hd hm2 b3 hlt).1
      rw [← this] at b1
      exact absurd (show cc 'm' 'o' 'o' 'v' = cc 'f' 't' 'y' 'p' from b1) (by decide)
    | cons a A =>
      rw [serL_cons, List.append_assoc] at hd hlt
      have := (box_ser_inj hd (hA a List.mem_cons_self).1 b3 hlt).1
      exact ⟨b, s, A, by rw [← this]; rfl, b1, b2⟩
  obtain ⟨⟨bext, bfc, bbody⟩, s, pre, rfl, hb1, hb2⟩ := hft
  dsimp only at hb1 hb2
  subst hb1 hb2
  have he : F = F.take p ++ (⟨bext, s, pre, ext, mv, B⟩ : File).ser := by
    conv => lhs; rw [hF]
    rw [serL_cons]
    simp only [File.ser, List.append_assoc]; rfl
  have hwf : (⟨bext, s, pre, ext, mv, B⟩ : File).WF := ⟨(hA _ List.mem_cons_self).1, hm2, hw, fun b hb => hA b (List.mem_cons_of_mem _ hb), hB⟩
  rw [writeTag] at h
  rcases hwr : writeTagTo e F p t.atoms with ⟨o, st⟩
  rw [hwr] at h
  injection h with h1 h2
  subst h1 h2
  have := written_file hl hm hf hst hwr hp hwf he hsi hg
  refine ⟨File.moovBox ((⟨bext, s, pre, ext, mv, B⟩ : File).put t.atoms), rfl, ?_⟩
  show st.file = _
  rw [this, serL_cons]
  simp only [File.ser, List.append_assoc]; rfl

/-- The hypotheses hold of the file of C41 ff. -/
example : TopLevel fileW.ser 0 (fileW.ftypBox :: fileW.pre) fileW.moovBox fileW.post ∧ fileW.moov.WF ∧
    (writeTag env62 fileW.ser 0 { atoms := atomsW }).1 = .ok () :=
  ⟨⟨Nat.zero_le _, by decide +kernel, by decide +kernel, by decide +kernel, by decide +kernel⟩, fileW_WF.2.2.1, by decide +kernel⟩

/-- A `free` atom in `udta` claims to be longer than it is by 8 bytes; the media data begins with 4000. -/
def longFree : Bytes :=
  (⟨false, cc 'f' 't' 'y' 'p', []⟩ : Box).ser ++
  (⟨false, cc 'm' 'o' 'o' 'v', (⟨false, cc 'u' 'd' 't' 'a', be32 16 ++ (cc 'f' 'r' 'e' 'e').bytes⟩ : Box).ser⟩ : Box).ser ++
  (⟨false, cc 'm' 'd' 'a' 't', be32 4000 ++ [1, 2, 3, 4, 5]⟩ : Box).ser

theorem longFree_top : TopLevel longFree 0 [⟨false, cc 'f' 't' 'y' 'p', []⟩]
    ⟨false, cc 'm' 'o' 'o' 'v', (⟨false, cc 'u' 'd' 't' 'a', be32 16 ++ (cc 'f' 'r' 'e' 'e').bytes⟩ : Box).ser⟩
    [⟨false, cc 'm' 'd' 'a' 't', be32 4000 ++ [1, 2, 3, 4, 5]⟩] :=
  ⟨Nat.zero_le _, by decide +kernel, by decide +kernel, by decide +kernel, by decide +kernel⟩

/-- **C79.** Nor does input that can be read remain readable: a tag is read from this input, another one is written to it successfully,
and after that reading fails. -/
theorem C79_unreadable : TopLevel longFree 0 [⟨false, cc 'f' 't' 'y' 'p', []⟩]
      ⟨false, cc 'm' 'o' 'o' 'v', (⟨false, cc 'u' 'd' 't' 'a', be32 16 ++ (cc 'f' 'r' 'e' 'e').bytes⟩ : Box).ser⟩
      [⟨false, cc 'm' 'd' 'a' 't', be32 4000 ++ [1, 2, 3, 4, 5]⟩] ∧ SaneSizes longFree ∧
    (∀ checked, readTag { env62 with checked } longFree 0 = .ok {} ∧
      (writeTag { env62 with checked } longFree 0 { atoms := atomsW }).1 = .ok () ∧
      readTag { env62 with checked } (writeTag { env62 with checked } longFree 0 { atoms := atomsW }).2 0 = .err .parsing) :=
  ⟨longFree_top, saneB_sound (by decide +kernel), by decide +kernel⟩

end Mp4.Props
