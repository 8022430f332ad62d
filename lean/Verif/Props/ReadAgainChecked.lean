import Verif.Props.Local
import Verif.Proof.LocalPut
/-
C81 with overflow checks.
-/
namespace Mp4.Props
open Mp4 Spec

theorem mkTag_udta (s : Str) (mo : Mp4.Moov) (l : List AtomData) :
    mkTag s { mo with udta := some (some (some l)) } = { mkTag s mo with atoms := l } := rfl

/-- **C81**, with overflow checks: movie header and audio descriptions need not be complete, it suffices that they could be read.
Reading ends at the end of the movie atom again. -/
theorem C81_checked (e : Env) (F : Bytes) (p : Nat) (t : Tag) (A : List Box) (m : Box) (B : List Box) (hk : e.checked = true)
    (hl : F.length ≤ e.maxPos) (hm : e.maxPos < 2^62) (hf : F.length < e.fuel) (hs : SaneSizes F) (ht : TopLevel F p A m B)
    (hr : readTagP e F p = .ok (t, (F.take p ++ serL id A ++ m.ser).length)) :
    ∃ f : File, f.WF ∧ F = F.take p ++ f.ser ∧ m = f.moovBox ∧ (f.moov.Low → ∀ (u : Tag) (G : Bytes),
      writeTag e F p u = (.ok (), G) → (∀ a ∈ u.atoms, Storable a) → (∀ a ∈ u.atoms, Visible a) → u.NoDup → f.PutFits u.atoms →
      (F.length : Int) + f.growth u.atoms ≤ e.maxPos → G.length < e.fuel →
      readTagP e G p = .ok ({ t with atoms := u.atoms }, (F.take p ++ serL id A ++ (f.put u.atoms).moovBox.ser).length)) := by
  have hfit : Fit e F := ⟨hl, by omega, hf⟩
  have hsb : SaneB e F := ⟨hfit, by omega, hs⟩
  obtain ⟨ext, y, pre, mo, rfl, rfl, hmo⟩ := read_decomp hsb ht hr
  obtain ⟨hp, hF, ⟨hm1, hm2⟩, hA, hB⟩ := ht
  have hX : (F.take p).length = p := by rw [List.length_take]; omega
  have hat : At F (F.take p ++ serL id (⟨ext, cc 'f' 't' 'y' 'p', utf8 y⟩ :: pre)).length m.ser := by
    refine At_intro' _ (serL id B) ?_ rfl
    conv => lhs; rw [hF]
  have hhd : HeadOf F (F.take p ++ serL id (⟨ext, cc 'f' 't' 'y' 'p', utf8 y⟩ :: pre)).length m.hd :=
    Par.parseHead (e := e) (Q := fun hd _ => HeadOf F _ hd) (fun _ h => h) _ _ (parseHead_box hat hm2 hfit.len e)
  have hfi := moov_findsV hk hsb _ _ hhd _ _ hmo
  have hsl := m.ser_length
  have hz : m.hd.size.headLen = m.headLen ∧ m.hd.size.len = m.ser.length := ⟨rfl, by rw [hsl]; rfl⟩
  rw [hz.1, hz.2] at hfi
  have hle := hat.le
  obtain ⟨c, hc, hn, mv, rfl, hwf, hst⟩ := hfi.fill (by rw [List.length_append (bs := m.ser)]; omega)
    (by rw [List.length_append (bs := m.ser)]; omega)
  have hb : m.body = mv.ser := by
    have h1 := (Box.body_at hat).2
    have h2 := hc.2
    rw [show mv.ser.length = m.body.length by omega] at h2
    exact h1.symm.trans h2
  obtain ⟨mext, fc, body⟩ := m
  dsimp only at hm1 hb
  subst hm1 hb
  have he : F = F.take p ++ (⟨ext, y, pre, mext, mv, B⟩ : File).ser := by
    conv => lhs; rw [hF]
    rw [serL_cons]
    simp only [File.ser, List.append_assoc]; rfl
  have hw : (⟨ext, y, pre, mext, mv, B⟩ : File).WF :=
    ⟨(hA _ List.mem_cons_self).1, hm2, hwf, fun b hb => hA b (List.mem_cons_of_mem _ hb), hB⟩
  refine ⟨_, hw, he, rfl, ?_⟩
  generalize hfe : (⟨ext, y, pre, mext, mv, B⟩ : File) = f at he hw
  intro hsi u G hwr hsto hv hd hpf hg hG
  rw [writeTag] at hwr
  rcases hwt : writeTagTo e F p u.atoms with ⟨o, s⟩
  rw [hwt] at hwr
  injection hwr with h1 h2
  subst h1 h2
  have hfile : s.file = F.take p ++ (f.put u.atoms).ser := written_file hl hm hf hsto hwt hp hw he hsi hg
  have hlen := congrArg List.length he
  rw [List.length_append] at hlen
  have htab : f.MediaBehind → f.moov.Tables := fun hb => by
    refine ((C77_iff e (F.take p) f u.atoms ⟨hw, by rw [← he]; exact hfit, hsto, by rw [← he]; omega, by rw [← he]; omega, hb⟩
      (by rw [← he]; exact hg) hsi).1).mp ?_
    rw [hX, ← he, hwt]
  have h1 := put_ser_length (f := f) (atoms := u.atoms) htab
  have h2 := growth_eq f u.atoms
  have h3 : (F.take p ++ (f.put u.atoms).ser).length = (F.take p).length + (f.put u.atoms).ser.length := List.length_append
  have hG' : (F.take p ++ (f.put u.atoms).ser).length < e.fuel := hfile ▸ hG
  have hfg : Fit e (F.take p ++ (f.put u.atoms).ser) := ⟨by omega, by omega, hG'⟩
  have hwp := put_WF hw htab hpf
  rw [hfile]
  have hi := ilst_content (atoms := u.atoms) fun a ha => ⟨(hsto a ha).2, hv a ha⟩
  have hstp := movieSteps_put (g := if f.MediaBehind then Spec.Trak.shift (f.growth u.atoms) else id) (fun t v hv => by
    split
    · exact trakV_shift hv
    · exact hv) hst hi
  rw [group_of_nodup hd] at hstp
  have hser : (f.put u.atoms).ser = (⟨ext, cc 'f' 't' 'y' 'p', utf8 y⟩ : Box).ser ++ (serL id pre ++ (f.put u.atoms).moovBox.ser) ++ serL id B := by
    subst hfe
    simp only [File.ser, List.append_assoc]; rfl
  have hmoov : (f.put u.atoms).moov = mv.put (if f.MediaBehind then Spec.Trak.shift (f.growth u.atoms) else id) u.atoms := by
    subst hfe; rfl
  have hatG : At (F.take p ++ (f.put u.atoms).ser) p
      ((⟨ext, cc 'f' 't' 'y' 'p', utf8 y⟩ : Box).ser ++ (serL id pre ++ (f.put u.atoms).moovBox.ser)) :=
    At_intro' (F.take p) (serL id B) (by rw [hser, ← List.append_assoc]) hX
  have hat3 := (hatG.right rfl).right rfl
  have hq : p + (⟨ext, cc 'f' 't' 'y' 'p', utf8 y⟩ : Box).ser.length + (serL id pre).length =
      p + (serL id (⟨ext, cc 'f' 't' 'y' 'p', utf8 y⟩ :: pre)).length := by
    rw [serL_cons, List.length_append]; exact Nat.add_assoc ..
  rw [hq] at hat3
  have h8 : 8 ≤ (serL id (⟨ext, cc 'f' 't' 'y' 'p', utf8 y⟩ :: pre)).length := by
    rw [serL_cons, List.length_append]
    have := (⟨ext, cc 'f' 't' 'y' 'p', utf8 y⟩ : Box).ser_length
    have h5 : 8 ≤ (⟨ext, cc 'f' 't' 'y' 'p', utf8 y⟩ : Box).headLen := by unfold Box.headLen; split <;> omega
    show 8 ≤ (⟨ext, cc 'f' 't' 'y' 'p', utf8 y⟩ : Box).ser.length + _
    omega
  have hrd := moov_replays (f.put u.atoms).moovBox _ _ rfl hwp.2.2.1 (hmoov ▸ hstp) _ _ hfg (by omega) hat3
  have := read_compose hfg (hA _ List.mem_cons_self).1 rfl hwp.2.1 (fun b hb => hA b (List.mem_cons_of_mem _ hb)) hatG hrd
  rw [this, mkTag_udta, List.length_append (bs := (f.put u.atoms).moovBox.ser), List.length_append, hX]

/-- An audio description that could be read, though it claims more bytes than its container has. -/
def esdsOver : Bytes := be32 200 ++ esdsEx.ser.drop 4
def mp4aOver : Box := ⟨false, cc 'm' 'p' '4' 'a', List.replicate 28 7 ++ esdsOver⟩
def stsdOver : Box := ⟨false, cc 's' 't' 's' 'd', 0 :: [0, 0, 0] ++ be32 1 ++ serL id [mp4aOver]⟩
def fileOver : File :=
  { fileEx with pre := [], post := [], moov := [.raw mvhdEx, .trak false [.node false [.node false [.node false [stsdOver]]]]] }

theorem mp4aOver_none (cs : List Config) : ¬ Mp4aBody mp4aOver.body cs := by
  rintro ⟨front, esds, rest, hf, -, hfit, hb, -⟩
  have hd : esdsOver = esds.ser ++ rest := by
    have := congrArg (List.drop 28) hb
    rw [List.append_assoc, ← hf, List.drop_left] at this
    rw [← this, hf]
    decide +kernel
  have h := parseHead_box (F := esds.ser ++ rest) (p := 0) (b := esds) (At_intro' [] rest rfl rfl) hfit
    (by rw [← hd]; decide +kernel) env62
  rw [← hd, show parseHead env62 esdsOver 0 = .ok (⟨⟨false, 200⟩, cc 'e' 's' 'd' 's'⟩, 8) by decide +kernel] at h
  injection h with h
  injection h with h _
  have h1 : 200 = esds.ser.length := by
    rw [esds.ser_length]; exact congrArg (fun h : Head => h.size.len) h
  have h2 := congrArg List.length hd
  have h3 : esdsOver.length < 100 := by decide +kernel
  rw [List.length_append, ← h1] at h2
  omega

theorem fileOver_top : TopLevel fileOver.ser 0 [⟨false, cc 'f' 't' 'y' 'p', utf8 fileOver.ftyp⟩] fileOver.moovBox [] :=
  ⟨Nat.zero_le _, by decide +kernel, by decide +kernel, by decide +kernel, by decide +kernel⟩

theorem fileOver_incomplete : ¬ Complete fileOver.moov := by
  intro h
  obtain ⟨r, q, hq, -⟩ := h.2 (.trak false [.node false [.node false [.node false [stsdOver]]]]) (by simp [fileOver]) _ rfl
  obtain ⟨r, q, hq, -⟩ := hq.1 _ List.mem_cons_self _ rfl
  obtain ⟨r, q, hq, -⟩ := hq.1 _ List.mem_cons_self _ rfl
  obtain ⟨r, q, hq, -⟩ := hq.1 _ List.mem_cons_self _ rfl
  obtain ⟨r, flags, count, entries, h1, h2, h3, h4, h5⟩ := hq.1 _ List.mem_cons_self stsdOver.body rfl
  have h6 : serL id [mp4aOver] = serL id entries := by
    have := congrArg (List.drop 8) h4
    rw [show 0 :: flags ++ count ++ serL id entries = (0 :: flags ++ count) ++ serL id entries from rfl,
      show 8 = (0 :: flags ++ count).length by simp [h1, h2], List.drop_left] at this
    rw [← this]
    have : (0 :: flags ++ count).length = 8 := by simp [h1, h2]
    rw [this]
    decide +kernel
  have h7 : [mp4aOver] = entries := serL_inj (box := id) (W := fun _ => True) (fun _ _ _ _ _ h => h) h6
    (fun x hx => by rw [List.mem_singleton] at hx; subst hx; exact ⟨by decide +kernel, trivial⟩) (fun x hx => ⟨h3 x hx, trivial⟩)
    (by decide +kernel)
  subst h7
  obtain ⟨cs, hcs⟩ := h5.1 _ List.mem_cons_self mp4aOver.body rfl
  exact mp4aOver_none cs hcs

/-- What is read from it. -/
def tagOver : Tag :=
  { ftyp := ['M', '4', 'A', ' '], info :=
      { duration := some 1666666666, channelConfig := some .stereo, sampleRate := some .hz44100, maxBitrate := some 320000,
        avgBitrate := some 256000 }, atoms := [] }

/-- The hypotheses of C81_checked hold of it, those of C81_partial do not. -/
example : ¬ Complete fileOver.moov ∧ SaneSizes fileOver.ser ∧ fileOver.PutFits atomsW ∧
    readTagP env62 fileOver.ser 0 = .ok (tagOver, fileOver.ser.length) ∧
    (writeTag env62 fileOver.ser 0 { atoms := atomsW }).1 = .ok () ∧
    readTag env62 (writeTag env62 fileOver.ser 0 { atoms := atomsW }).2 0 = .ok { tagOver with atoms := atomsW } :=
  ⟨fileOver_incomplete, saneB_sound (by decide +kernel), putFits_of_small (by decide +kernel), by decide +kernel, by decide +kernel,
    by decide +kernel⟩

end Mp4.Props
