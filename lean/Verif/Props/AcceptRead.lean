import Verif.Proof.AcceptRead
import Verif.Props.Accept
/-
C80: the items that are read are those of the movie atom.
-/
namespace Mp4.Props
open Mp4 Spec

/-- The items of a movie atom, merged: those of the last `ilst` in the last `meta` in the last `udta`. -/
def MovieItems (mv : Spec.Moov) (atoms : List AtomData) : Prop :=
  ∃ r, LastOf MoovKid.udta? UdtaItems mv r ∧ atoms = group (r.join.getD [])

/-- **C80**, the full claim: whenever a tag is read from input made of atoms, its items are the items of the movie atom, whose content
is well-formed. -/
def ItemsOfMovie : Prop := ∀ (e : Env) (F : Bytes) (p : Nat) (t : Tag) (A : List Box) (m : Box) (B : List Box),
  F.length ≤ e.maxPos → e.maxPos < 2^63 → F.length < e.fuel → SaneSizes F → TopLevel F p A m B → readTag e F p = .ok t →
  ∃ mv : Spec.Moov, m.body = mv.ser ∧ mv.WF ∧ MovieItems mv t.atoms

theorem top_drop {F : Bytes} {p : Nat} {A B : List Box} {m : Box} (ht : TopLevel F p A m B) :
    F.drop p = serL id A ++ (m.ser ++ serL id B) := by
  have hX : (F.take p).length = p := by rw [List.length_take]; have := ht.start; omega
  conv => lhs; rw [ht.all]
  rw [List.append_assoc, List.append_assoc, List.drop_append, List.drop_eq_nil_of_le (by omega), hX, Nat.sub_self]; rfl

/-- **C80.** Reading ends at the end of the movie atom or behind it. If it ends there, then the movie atom is well-formed, its items
are those of the tag, and the text of the file type atom is that of the tag. -/
theorem C80_partial (e : Env) (F : Bytes) (p : Nat) (t : Tag) (A : List Box) (m : Box) (B : List Box) (q : Nat)
    (hl : F.length ≤ e.maxPos) (hm : e.maxPos < 2^63) (hf : F.length < e.fuel) (hs : SaneSizes F) (ht : TopLevel F p A m B)
    (h : readTagP e F p = .ok (t, q)) :
    (F.take p ++ serL id A ++ m.ser).length ≤ q ∧
    (q = (F.take p ++ serL id A ++ m.ser).length → ∃ ext pre, ∃ mv : Spec.Moov,
      A = ⟨ext, cc 'f' 't' 'y' 'p', utf8 t.ftyp⟩ :: pre ∧ m.body = mv.ser ∧ mv.WF ∧ MovieItems mv t.atoms) := by
  have hfit : Fit e F := ⟨hl, by omega, hf⟩
  have hsb : SaneB e F := ⟨hfit, hm, hs⟩
  have hd := top_drop ht
  obtain ⟨hp, hF, ⟨hm1, hm2⟩, hA, hB⟩ := ht
  have hX : (F.take p).length = p := by rw [List.length_take]; omega
  obtain ⟨s, q1, h1, h2⟩ := P.bind_inv h
  obtain ⟨-, b, b1, b2, b3, b4, rfl⟩ := parseFtyp_fills hsb _ _ h1
  have hlen := congrArg List.length hd
  rw [List.length_drop] at hlen
  have hd' := b4.drop
  rw [hd] at hd'
  have hft : ∃ pre, A = b :: pre := by
    cases A with
    | nil =>
      have := (box_ser_inj hd' hm2 b3 (by rw [serL_nil, List.nil_append] at hlen; omega)).1
      rw [← this, hm1] at b1
      exact absurd b1 (by decide)
    | cons a A =>
      rw [serL_cons, List.append_assoc] at hd' hlen
      have := (box_ser_inj hd' (hA a List.mem_cons_self).1 b3 (by rw [← hlen]; omega)).1
      exact ⟨A, by rw [← this]; rfl⟩
  obtain ⟨pre, rfl⟩ := hft
  have hat : At F p (b.ser ++ (serL id pre ++ m.ser)) := by
    refine At_intro' (F.take p) (serL id B) ?_ hX
    conv => lhs; rw [hF]
    rw [serL_cons]; simp only [List.append_assoc]; rfl
  have hle := hat.le
  have hat2 := hat.right rfl
  have hat3 := hat2.right rfl
  have hl2 := serL_length_le id pre
  simp only [List.length_append] at hle
  rw [P.bind_ok (remaining_at hfit (show p + b.ser.length ≤ F.length by omega)),
    P.bind_ok (show getFuel e F _ = .ok (e.fuel, _) from rfl)] at h2
  obtain ⟨mo, q2, h3, h4⟩ := P.bind_inv h2
  obtain ⟨rfl, hq2⟩ := P.pure_inv h4
  subst hq2
  rw [topWalk_at hfit hm1 hm2 pre e.fuel 0 (p + b.ser.length) (F.length - (p + b.ser.length))
    (fun x hx => hA x (List.mem_cons_of_mem _ hx)) hat2 (by omega) (by omega) (by omega) rfl] at h3
  have hat3' : At F (p + b.ser.length + (serL id pre).length) m.ser := hat3
  have hhd : HeadOf F (p + b.ser.length + (serL id pre).length) m.hd :=
    Par.parseHead (e := e) (Q := fun hd _ => HeadOf F _ hd) (fun _ h => h) _ _ (parseHead_box hat3' hm2 hfit.len e)
  have hmo := parseMoov_fills hsb hhd mo _ h3
  have hsl := m.ser_length
  have hE : (F.take p ++ serL id (b :: pre) ++ m.ser).length = p + b.ser.length + (serL id pre).length + m.ser.length := by
    rw [List.length_append, List.length_append, hX, serL_cons, List.length_append]; simp only [id]; omega
  have hz : m.hd.size.headLen = m.headLen ∧ m.hd.size.len = m.ser.length := ⟨rfl, by rw [hsl]; rfl⟩
  have hle2 := hmo.le
  rw [hz.1, hz.2] at hle2 hmo
  rw [hE]
  refine ⟨by omega, fun hq => ?_⟩
  obtain ⟨c, hc, hn, mv, rfl, hw, r, hr, hv⟩ := hmo.fill (by omega) (by omega)
  refine ⟨b.ext, pre, mv, ?_, ?_, hw, r, hr, hv⟩
  · show b :: pre = (⟨b.ext, cc 'f' 't' 'y' 'p', utf8 s⟩ : Box) :: pre
    rw [← b1, ← b2]
  · have hb := Box.body_at hat3'
    have h1 := hb.2
    have h2 := hc.2
    rw [show mv.ser.length = m.body.length by omega] at h2
    exact h1.symm.trans h2

/-- **C80.** If in addition the movie header and the audio description are well-formed, then reading does end there. -/
theorem C80_end (e : Env) (X Y : Bytes) (f : File) (t : Tag) (hF : Fit e (X ++ f.ser ++ Y)) (hw : f.WF) (hc : f.Content t) :
    readTagP e (X ++ f.ser ++ Y) X.length = .ok (t, (X ++ serL id (f.ftypBox :: f.pre) ++ f.moovBox.ser).length) := by
  obtain ⟨h1, h2, h3, h4, h5⟩ := hw
  rw [readTagP_at hF h1 h2 h3 h4 hc (At_intro' X (serL id f.post ++ Y) (by simp [File.ser]) rfl), serL_cons]
  simp only [List.length_append, id, Nat.add_assoc]

/-- The item list claims to be longer than it is, and an item is behind the movie atom. -/
def outside : Bytes :=
  (⟨false, cc 'f' 't' 'y' 'p', []⟩ : Box).ser ++
  (⟨false, cc 'm' 'o' 'o' 'v', (⟨false, cc 'u' 'd' 't' 'a', (⟨false, cc 'm' 'e' 't' 'a', [0, 0, 0, 0] ++ be32 33 ++ (cc 'i' 'l' 's' 't').bytes⟩
    : Box).ser⟩ : Box).ser⟩ : Box).ser ++
  (⟨false, cc 'm' 'd' 'a' 't', (⟨false, cc 'd' 'a' 't' 'a', be32 1 ++ [0, 0, 0, 0] ++ utf8 ['x']⟩ : Box).ser⟩ : Box).ser

def outsideMoov : Box :=
  ⟨false, cc 'm' 'o' 'o' 'v', (⟨false, cc 'u' 'd' 't' 'a', (⟨false, cc 'm' 'e' 't' 'a', [0, 0, 0, 0] ++ be32 33 ++ (cc 'i' 'l' 's' 't').bytes⟩
    : Box).ser⟩ : Box).ser⟩

theorem outside_top : TopLevel outside 0 [⟨false, cc 'f' 't' 'y' 'p', []⟩] outsideMoov
    [⟨false, cc 'm' 'd' 'a' 't', (⟨false, cc 'd' 'a' 't' 'a', be32 1 ++ [0, 0, 0, 0] ++ utf8 ['x']⟩ : Box).ser⟩] :=
  ⟨Nat.zero_le _, by decide +kernel, by decide +kernel, by decide +kernel, by decide +kernel⟩

/-- What is read is the media data, as an item called `mdat`. -/
theorem C80_outside (checked : Bool) : readTag { env62 with checked } outside 0 =
    .ok { atoms := [⟨.fourcc (cc 'm' 'd' 'a' 't'), [.utf8 ['x']]⟩] } := by
  cases checked <;> decide +kernel

/-- **C80** is false: a size that does not fit makes the reader take bytes behind the movie atom for items. -/
theorem C80_refuted : ¬ ItemsOfMovie := by
  intro h
  obtain ⟨mv, h1, h2, -⟩ := h env62 outside 0 _ _ outsideMoov _ (by decide +kernel) (by decide) (by decide +kernel)
    (saneB_sound (by decide +kernel)) outside_top (C80_outside true)
  refine not_accepted (F := (⟨false, cc 'f' 't' 'y' 'p', []⟩ : Box).ser ++ outsideMoov.ser) (by decide +kernel) (by decide +kernel)
    (by decide +kernel) (by decide +kernel) ⟨Nat.zero_le _, .inl ⟨⟨false, [], [], false, mv, []⟩, ⟨?_, ?_, h2, by simp, by simp⟩, ?_⟩⟩
  · show (⟨false, cc 'f' 't' 'y' 'p', utf8 []⟩ : Box).Fits
    decide
  · show (⟨false, cc 'm' 'o' 'o' 'v', mv.ser⟩ : Box).Fits
    rw [← h1]; decide +kernel
  · show _ = _ ++ ((⟨false, cc 'f' 't' 'y' 'p', utf8 []⟩ : Box).ser ++ serL id [] ++ (⟨false, cc 'm' 'o' 'o' 'v', mv.ser⟩ : Box).ser ++ serL id [])
    rw [← h1]; decide +kernel

/-- The hypotheses of C80_partial hold of the file of C41 ff., and reading ends behind the movie atom. -/
example : (match readTagP env62 fileW.ser 0 with
      | .ok (t, q) => decide (q = (fileW.ser.take 0 ++ serL id (fileW.ftypBox :: fileW.pre) ++ fileW.moovBox.ser).length ∧ t.atoms.length = 2)
      | _ => false) = true ∧
    TopLevel fileW.ser 0 (fileW.ftypBox :: fileW.pre) fileW.moovBox fileW.post ∧ SaneSizes fileW.ser :=
  ⟨by decide +kernel, ⟨Nat.zero_le _, by decide +kernel, by decide +kernel, by decide +kernel, by decide +kernel⟩,
    saneB_sound (by decide +kernel)⟩

end Mp4.Props
