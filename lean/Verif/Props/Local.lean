import Verif.Proof.Local
import Verif.Props.ReadAgain
/-
C89: the tag depends only on the file type atom and the movie atom.
-/
namespace Mp4.Props
open Mp4 Spec

/-- **C89**, the full claim: a tag that is read from input made of atoms is also read from any other input that begins with the same
file type atom and has the same movie atom, whatever the other atoms and whatever precedes the start. -/
def OnlyMovie : Prop := ∀ (e : Env) (F F' : Bytes) (p p' : Nat) (t : Tag) (A A' : List Box) (m : Box) (B B' : List Box),
  F.length ≤ e.maxPos → F'.length ≤ e.maxPos → e.maxPos < 2^63 → F.length < e.fuel → F'.length < e.fuel → SaneSizes F →
  TopLevel F p A m B → TopLevel F' p' A' m B' → A'.head? = A.head? → readTag e F p = .ok t → readTag e F' p' = .ok t

/-- Reading input made of atoms: the file type atom, then the movie atom. -/
theorem read_decomp {e : Env} {F : Bytes} {p : Nat} {t : Tag} {A : List Box} {m : Box} {B : List Box} {q : Nat}
    (hsb : SaneB e F) (ht : TopLevel F p A m B) (h : readTagP e F p = .ok (t, q)) :
    ∃ ext s pre mo, A = ⟨ext, cc 'f' 't' 'y' 'p', utf8 s⟩ :: pre ∧ t = mkTag s mo ∧
      parseMoov m.size e F ((F.take p ++ serL id A).length + m.headLen) = .ok (mo, q) := by
  have hfit := hsb.fit
  have hd := top_drop ht
  obtain ⟨hp, hF, ⟨hm1, hm2⟩, hA, hB⟩ := ht
  have hX : (F.take p).length = p := by rw [List.length_take]; omega
  obtain ⟨s, q1, h1, h2⟩ := P.bind_inv h
  obtain ⟨-, b, b1, b2, b3, b4, rfl⟩ := parseFtyp_fills hsb _ _ h1
  have hlen := congrArg List.length hd
  rw [List.length_drop] at hlen
  have hd' := b4.drop
  rw [hd] at hd'
  have hft : ∃ pre, A = b :: pre := by
    cases A with
    | nil =>
      have hfl := hfit.len
      have := (box_ser_inj hd' hm2 b3 (by rw [serL_nil, List.nil_append] at hlen; omega)).1
      rw [← this, hm1] at b1
      exact absurd b1 (by decide)
    | cons a A =>
      have hfl := hfit.len
      rw [serL_cons, List.append_assoc] at hd' hlen
      have := (box_ser_inj hd' (hA a List.mem_cons_self).1 b3 (by rw [← hlen]; omega)).1
      exact ⟨A, by rw [← this]; rfl⟩
  obtain ⟨pre, rfl⟩ := hft
  have hat : At F p (b.ser ++ (serL id pre ++ m.ser)) := by
    refine At_intro' (F.take p) (serL id B) ?_ hX
    conv => lhs; rw [hF]
    rw [serL_cons]; simp only [List.append_assoc]; rfl
  have hle := hat.le
  have hat2 := hat.right rfl
  have hl2 := serL_length_le id pre
  have hff := hfit.fuel
  simp only [List.length_append] at hle
  rw [P.bind_ok (remaining_at hfit (show p + b.ser.length ≤ F.length by omega)),
    P.bind_ok (show getFuel e F _ = .ok (e.fuel, _) from rfl)] at h2
  obtain ⟨mo, q2, h3, h4⟩ := P.bind_inv h2
  obtain ⟨rfl, hq2⟩ := P.pure_inv h4
  subst hq2
  rw [topWalk_at hfit hm1 hm2 pre e.fuel 0 (p + b.ser.length) (F.length - (p + b.ser.length))
    (fun x hx => hA x (List.mem_cons_of_mem _ hx)) hat2 (by omega) (by omega) (by omega) rfl] at h3
  refine ⟨b.ext, s, pre, mo, ?_, rfl, ?_⟩
  · rw [← b1, ← b2]
  · rw [List.length_append, hX, serL_cons, List.length_append, ← Nat.add_assoc p]; exact h3

/-- The converse. -/
theorem read_compose {e : Env} {F : Bytes} {p : Nat} {ext : Bool} {s : Str} {pre : List Box} {m : Box} {mo : Mp4.Moov} {q : Nat}
    (hfit : Fit e F) (hf : (⟨ext, cc 'f' 't' 'y' 'p', utf8 s⟩ : Box).Fits) (hm1 : m.fc = cc 'm' 'o' 'o' 'v') (hm2 : m.Fits)
    (hA : ∀ b ∈ pre, b.Fits ∧ b.fc ≠ cc 'm' 'o' 'o' 'v')
    (hat : At F p ((⟨ext, cc 'f' 't' 'y' 'p', utf8 s⟩ : Box).ser ++ (serL id pre ++ m.ser)))
    (h : parseMoov m.size e F (p + (serL id (⟨ext, cc 'f' 't' 'y' 'p', utf8 s⟩ :: pre)).length + m.headLen) = .ok (mo, q)) :
    readTagP e F p = .ok (mkTag s mo, q) := by
  have hle := hat.le
  have hat2 := hat.right rfl
  have hl2 := serL_length_le id pre
  have hff := hfit.fuel
  simp only [List.length_append] at hle
  rw [readTagP, P.bind_ok (parseFtyp_at hfit hf hat.left), P.bind_ok (remaining_at hfit (by omega)),
    P.bind_ok (show getFuel e F _ = .ok (e.fuel, _) from rfl),
    P.bind_ok (topWalk_at (r := .ok (mo, q)) hfit hm1 hm2 pre e.fuel 0 _ _ hA hat2 (by omega) (by omega) (by omega) ?_)]
  · rfl
  · rw [serL_cons, List.length_append, ← Nat.add_assoc p] at h; exact h

/-- **C89**, with overflow checks: if reading ended at `q`, then nothing but the file type atom and the bytes from the movie atom
up to `q` matters. The same tag is read from any input in which they are found, in the same order with atoms in between. -/
theorem C89_upto (e : Env) (F F' : Bytes) (p : Nat) (t : Tag) (A : List Box) (m : Box) (B : List Box) (q : Nat) (hc : e.checked = true)
    (hl : F.length ≤ e.maxPos) (hl' : F'.length ≤ e.maxPos) (hm : e.maxPos < 2^63) (hf : F.length < e.fuel) (hf' : F'.length < e.fuel)
    (hs : SaneSizes F) (ht : TopLevel F p A m B) (h : readTagP e F p = .ok (t, q))
    (X' : Bytes) (pre' : List Box) (Y' : Bytes) (hA' : ∀ b ∈ pre', b.Fits ∧ b.fc ≠ cc 'm' 'o' 'o' 'v')
    (hF' : F' = X' ++ serL id (A.take 1 ++ pre') ++ m.ser ++ Y')
    (hY : ∀ i, (F.take p ++ serL id A ++ m.ser).length + i < min q F.length →
      Y'[i]? = F[(F.take p ++ serL id A ++ m.ser).length + i]?)
    (hq : (X' ++ serL id (A.take 1 ++ pre')).length + (q - (F.take p ++ serL id A).length) ≤ e.maxPos) :
    readTagP e F' X'.length =
      .ok (t, (X' ++ serL id (A.take 1 ++ pre')).length + (q - (F.take p ++ serL id A).length)) := by
  have hfit : Fit e F := ⟨hl, by omega, hf⟩
  have hfit' : Fit e F' := ⟨hl', by omega, hf'⟩
  have hsb : SaneB e F := ⟨hfit, hm, hs⟩
  obtain ⟨ext, s, pre, mo, rfl, rfl, hmo⟩ := read_decomp hsb ht h
  obtain ⟨hp, hF, ⟨hm1, hm2⟩, hA, hB⟩ := ht
  have hpos := m.headLen_pos
  have hsl := m.ser_length
  rw [show List.take 1 ((⟨ext, cc 'f' 't' 'y' 'p', utf8 s⟩ : Box) :: pre) ++ pre' = ⟨ext, cc 'f' 't' 'y' 'p', utf8 s⟩ :: pre' from rfl]
    at hF' hq ⊢
  generalize hS : (F.take p ++ serL id (⟨ext, cc 'f' 't' 'y' 'p', utf8 s⟩ :: pre)).length = S at *
  generalize hS' : (X' ++ serL id (⟨ext, cc 'f' 't' 'y' 'p', utf8 s⟩ :: pre')).length = S' at *
  have hft := (hA _ List.mem_cons_self).1
  have hh8 := (⟨ext, cc 'f' 't' 'y' 'p', utf8 s⟩ : Box).headLen_pos
  have h8 : 8 ≤ S' := by
    rw [← hS', List.length_append, serL_cons, List.length_append]
    have := (⟨ext, cc 'f' 't' 'y' 'p', utf8 s⟩ : Box).ser_length
    simp only [id]
    omega
  obtain ⟨g1, mo', rfl, g2⟩ := Here.parseMoov hc hsb m.size (S' - S : Int) _ _ _ (by omega) hmo
  have hF2 : F = (F.take p ++ serL id (⟨ext, cc 'f' 't' 'y' 'p', utf8 s⟩ :: pre)) ++ (m.ser ++ serL id B) := by
    conv => lhs; rw [hF]
    rw [List.append_assoc]
  have hF2' : F' = (X' ++ serL id (⟨ext, cc 'f' 't' 'y' 'p', utf8 s⟩ :: pre')) ++ (m.ser ++ Y') := by
    rw [hF', List.append_assoc]
  have hE : (F.take p ++ serL id (⟨ext, cc 'f' 't' 'y' 'p', utf8 s⟩ :: pre) ++ m.ser).length = S + m.ser.length := by
    rw [List.length_append, hS]
  have hsame : ∀ i, i < q - S → S + i < F.length → F'[S' + i]? = F[S + i]? := by
    intro i hi hil
    by_cases him : i < m.ser.length
    · conv => lhs; rw [hF2', List.getElem?_append_right (by omega), hS', show S' + i - S' = i by omega,
        List.getElem?_append_left him]
      conv => rhs; rw [hF2, List.getElem?_append_right (by omega), hS, show S + i - S = i by omega,
        List.getElem?_append_left him]
    · have := hY (i - m.ser.length) (by rw [hE]; omega)
      rw [hE, show S + m.ser.length + (i - m.ser.length) = S + i by omega] at this
      rw [← this, hF2', List.getElem?_append_right (by omega), hS', List.getElem?_append_right (by omega)]
      congr 1; omega
  have g3 := g2 F' (S' + m.headLen) (by omega) (by omega) (fun i hi hil => by
    have := hsame (m.headLen + i) (by omega) (by omega)
    rwa [← Nat.add_assoc, ← Nat.add_assoc] at this)
  rw [show S' + m.headLen + (q - (S + m.headLen)) = S' + (q - S) by omega] at g3
  refine read_compose hfit' hft hm1 hm2 hA' (At_intro' X' Y' ?_ rfl) ?_
  · rw [hF', serL_cons]; simp only [List.append_assoc]; rfl
  · rw [← List.length_append, hS']; exact g3

/-- **C89.** With overflow checks, if reading ended at the end of the movie atom, then the same tag is read from any input that consists
of anything up to the start, the same file type atom, any other atoms, the same movie atom, and anything behind it. -/
theorem C89_partial (e : Env) (F F' : Bytes) (p : Nat) (t : Tag) (A : List Box) (m : Box) (B : List Box) (hc : e.checked = true)
    (hl : F.length ≤ e.maxPos) (hl' : F'.length ≤ e.maxPos) (hm : e.maxPos < 2^63) (hf : F.length < e.fuel) (hf' : F'.length < e.fuel)
    (hs : SaneSizes F) (ht : TopLevel F p A m B) (h : readTagP e F p = .ok (t, (F.take p ++ serL id A ++ m.ser).length))
    (X' : Bytes) (pre' : List Box) (Y' : Bytes) (hA' : ∀ b ∈ pre', b.Fits ∧ b.fc ≠ cc 'm' 'o' 'o' 'v')
    (hF' : F' = X' ++ serL id (A.take 1 ++ pre') ++ m.ser ++ Y') :
    readTagP e F' X'.length = .ok (t, (X' ++ serL id (A.take 1 ++ pre') ++ m.ser).length) := by
  have hlen := congrArg List.length hF'
  rw [List.length_append, List.length_append (bs := m.ser)] at hlen
  have hE : (F.take p ++ serL id A ++ m.ser).length - (F.take p ++ serL id A).length = m.ser.length := by
    rw [List.length_append (bs := m.ser)]; omega
  rw [C89_upto e F F' p t A m B _ hc hl hl' hm hf hf' hs ht h X' pre' Y' hA' hF' (fun i hi => by omega) (by rw [hE]; omega), hE,
    List.length_append (bs := m.ser)]

/-- The movie header is too short and the last atom of the movie. -/
def shortMoov : Box := ⟨false, cc 'm' 'o' 'o' 'v', (⟨false, cc 'm' 'v' 'h' 'd', List.replicate 12 0⟩ : Box).ser⟩
/-- A file with it, and an atom behind it. -/
def shortAnd (b : Box) : Bytes := (⟨false, cc 'f' 't' 'y' 'p', []⟩ : Box).ser ++ shortMoov.ser ++ b.ser

/-- The full claim without overflow checks: the duration is read from the atom behind the movie, and reading ends at the end of the
movie atom nevertheless. -/
theorem C89_unchecked :
    readTagP { env62 with checked := false } (shortAnd ⟨false, cc 'f' 'r' 'e' 'e', []⟩) 0 =
      .ok ({ info := { duration := some 214846636625000000 } }, 36) ∧
    readTagP { env62 with checked := false } (shortAnd ⟨false, cc 'f' 'r' 'e' 'e', [0]⟩) 0 =
      .ok ({ info := { duration := some 190974788111111111 } }, 36) ∧
    readTag env62 (shortAnd ⟨false, cc 'f' 'r' 'e' 'e', []⟩) 0 = .panic := by decide +kernel

/-- The full claim with overflow checks: the items are read from the atom behind the movie. -/
def outsideAnd (c : Char) : Bytes :=
  (⟨false, cc 'f' 't' 'y' 'p', []⟩ : Box).ser ++ outsideMoov.ser ++
  (⟨false, cc 'm' 'd' 'a' 't', (⟨false, cc 'd' 'a' 't' 'a', be32 1 ++ [0, 0, 0, 0] ++ utf8 [c]⟩ : Box).ser⟩ : Box).ser

theorem C89_behind (checked : Bool) :
    readTag { env62 with checked } (outsideAnd 'x') 0 = .ok { atoms := [⟨.fourcc (cc 'm' 'd' 'a' 't'), [.utf8 ['x']]⟩] } ∧
    readTag { env62 with checked } (outsideAnd 'y') 0 = .ok { atoms := [⟨.fourcc (cc 'm' 'd' 'a' 't'), [.utf8 ['y']]⟩] } := by
  cases checked <;> decide +kernel

/-- **C89** is false: a size that does not fit makes the reader go on behind the movie atom. -/
theorem C89_refuted : ¬ OnlyMovie := by
  intro h
  have := h env62 (outsideAnd 'x') (outsideAnd 'y') 0 0 _ [⟨false, cc 'f' 't' 'y' 'p', []⟩] [⟨false, cc 'f' 't' 'y' 'p', []⟩] outsideMoov
    [⟨false, cc 'm' 'd' 'a' 't', (⟨false, cc 'd' 'a' 't' 'a', be32 1 ++ [0, 0, 0, 0] ++ utf8 ['x']⟩ : Box).ser⟩]
    [⟨false, cc 'm' 'd' 'a' 't', (⟨false, cc 'd' 'a' 't' 'a', be32 1 ++ [0, 0, 0, 0] ++ utf8 ['y']⟩ : Box).ser⟩]
    (by decide +kernel) (by decide +kernel) (by decide) (by decide +kernel) (by decide +kernel) (saneB_sound (by decide +kernel))
    ⟨Nat.zero_le _, by decide +kernel, by decide +kernel, by decide +kernel, by decide +kernel⟩
    ⟨Nat.zero_le _, by decide +kernel, by decide +kernel, by decide +kernel, by decide +kernel⟩ rfl (C89_behind true).1
  have h2 : readTag env62 (outsideAnd 'y') 0 = _ := (C89_behind true).2
  rw [h2] at this
  revert this
  decide +kernel

/-- The file of C41 ff. behind three bytes, with another atom between file type and movie, and garbage behind the movie. -/
example : readTag env62 ([1, 2, 3] ++ serL id [fileW.ftypBox, ⟨true, cc 'm' 'd' 'a' 't', [7, 7]⟩] ++ fileW.moovBox.ser ++ [0, 0, 0]) 3 =
      readTag env62 fileW.ser 0 ∧
    (match readTagP env62 fileW.ser 0 with
      | .ok (t, q) => decide (q = (fileW.ser.take 0 ++ serL id (fileW.ftypBox :: fileW.pre) ++ fileW.moovBox.ser).length ∧ t.atoms.length = 2)
      | _ => false) = true := by decide +kernel

end Mp4.Props
