import Verif.Props.AcceptRead
import Verif.Props.Path
/-
C81: reading what was written to input that could be read.
-/
namespace Mp4.Props
open Mp4 Spec

/-- **C81**, the full claim: after a successful write to input that could be read, the written items are read, and the rest of the tag
is as before. -/
def ReadsAgain : Prop := ∀ (e : Env) (F : Bytes) (p : Nat) (t u : Tag) (A : List Box) (m : Box) (B : List Box) (G : Bytes),
  F.length ≤ e.maxPos → G.length ≤ e.maxPos → e.maxPos < 2^62 → F.length < e.fuel → G.length < e.fuel → SaneSizes F →
  TopLevel F p A m B → readTag e F p = .ok t → writeTag e F p u = (.ok (), G) →
  (∀ a ∈ u.atoms, Storable a) → (∀ a ∈ u.atoms, Visible a) → u.NoDup →
  readTag e G p = .ok { t with atoms := u.atoms }

/-- The movie header and the audio descriptions are complete. -/
def Complete (mv : Spec.Moov) : Prop :=
  (∀ k ∈ mv, ∀ b, k.mvhd? = some b → ∃ n, MvhdBody b n) ∧ ∀ k ∈ mv, ∀ s, k.trak? = some s → ∃ r, TrakAudio s r

theorem all2_of {α β} {R : α → β → Prop} : ∀ (l : List α), (∀ a ∈ l, ∃ b, R a b) → ∃ bs, All2 R l bs
  | [], _ => ⟨[], trivial⟩
  | a :: l, h => by
    obtain ⟨b, hb⟩ := h a List.mem_cons_self
    obtain ⟨bs, hbs⟩ := all2_of l fun x hx => h x (List.mem_cons_of_mem _ hx)
    exact ⟨b :: bs, hb, hbs⟩

theorem content_of {f : File} (hc : Complete f.moov) {atoms : List AtomData} (h : MovieItems f.moov atoms) :
    ∃ t, f.Content t ∧ t.atoms = atoms := by
  obtain ⟨r, hr, rfl⟩ := h
  obtain ⟨d, hd⟩ := lastOf_some hc.1
  obtain ⟨as, has⟩ := all2_of (f.moov.filterMap MoovKid.trak?) (R := TrakAudio) (by
    intro s hs
    obtain ⟨k, hk, hks⟩ := List.mem_filterMap.mp hs
    exact hc.2 k hk s hks)
  exact ⟨_, ⟨d, _, _, ⟨hd, ⟨as, has, rfl⟩, r, hr, rfl⟩, rfl⟩, rfl⟩

/-- **C81.** If reading ended at the end of the movie atom, then the input is a file. After a successful write to it the written
items are read, with the file type and the audio information read before; provided that movie header and audio descriptions are complete,
that the sizes can be stored, and that 64 bit chunk offsets are below 2^62. -/
theorem C81_partial (e : Env) (F : Bytes) (p : Nat) (t : Tag) (A : List Box) (m : Box) (B : List Box) (hl : F.length ≤ e.maxPos)
    (hm : e.maxPos < 2^62) (hf : F.length < e.fuel) (hs : SaneSizes F) (ht : TopLevel F p A m B)
    (hr : readTagP e F p = .ok (t, (F.take p ++ serL id A ++ m.ser).length)) :
    ∃ f : File, f.WF ∧ F = F.take p ++ f.ser ∧ m = f.moovBox ∧ (Complete f.moov → f.moov.Low → ∀ (u : Tag) (G : Bytes),
      writeTag e F p u = (.ok (), G) → (∀ a ∈ u.atoms, Storable a) → (∀ a ∈ u.atoms, Visible a) → u.NoDup → f.PutFits u.atoms →
      (F.length : Int) + f.growth u.atoms ≤ e.maxPos → G.length < e.fuel → readTag e G p = .ok { t with atoms := u.atoms }) := by
  obtain ⟨ext, pre, mv, rfl, hb, hwf, hi⟩ := (C80_partial e F p t A m B _ hl (by omega) hf hs ht hr).2 rfl
  obtain ⟨hp, hF, ⟨hm1, hm2⟩, hA, hB⟩ := ht
  have hX : (F.take p).length = p := by rw [List.length_take]; omega
  obtain ⟨mext, fc, body⟩ := m
  dsimp only at hm1 hb
  subst hm1 hb
  have he : F = F.take p ++ (⟨ext, t.ftyp, pre, mext, mv, B⟩ : File).ser := by
    conv => lhs; rw [hF]
    rw [serL_cons]
    simp only [File.ser, List.append_assoc]; rfl
  have hw : (⟨ext, t.ftyp, pre, mext, mv, B⟩ : File).WF :=
    ⟨(hA _ List.mem_cons_self).1, hm2, hwf, fun b hb => hA b (List.mem_cons_of_mem _ hb), hB⟩
  refine ⟨_, hw, he, rfl, ?_⟩
  generalize hfe : (⟨ext, t.ftyp, pre, mext, mv, B⟩ : File) = f at he hw
  have hmv : f.moov = mv := by rw [← hfe]
  rw [← hmv] at hi
  intro hco hsi u G hwr hst hv hd hpf hg hG
  have hfit : Fit e F := ⟨hl, by omega, hf⟩
  obtain ⟨t', hc, hat⟩ := content_of hco hi
  have hfy : Fit e (F.take p ++ f.ser ++ []) := by rw [List.append_nil, ← he]; exact hfit
  have hrd := read_spec hfy hw hc
  rw [List.append_nil, ← he, hX] at hrd
  have ht' : t' = t := by
    rw [readTag, hr] at hrd
    exact (Out.ok.inj hrd).symm
  subst ht'
  rw [writeTag] at hwr
  rcases hwt : writeTagTo e F p u.atoms with ⟨o, s⟩
  rw [hwt] at hwr
  injection hwr with h1 h2
  subst h1 h2
  have hfile : s.file = F.take p ++ (f.put u.atoms).ser := written_file hl hm hf hst hwt hp hw he hsi hg
  have hlen := congrArg List.length he
  rw [List.length_append] at hlen
  have htab : f.MediaBehind → f.moov.Tables := fun hb => by
    refine ((C77_iff e (F.take p) f u.atoms ⟨hw, by rw [← he]; exact hfit, hst, by rw [← he]; omega, by rw [← he]; omega, hb⟩
      (by rw [← he]; exact hg) hsi).1).mp ?_
    rw [hX, ← he, hwt]
  have h1 := put_ser_length (f := f) (atoms := u.atoms) htab
  have h2 := growth_eq f u.atoms
  have h3 : (F.take p ++ (f.put u.atoms).ser).length = (F.take p).length + (f.put u.atoms).ser.length := List.length_append
  have hG' : (F.take p ++ (f.put u.atoms).ser).length < e.fuel := hfile ▸ hG
  obtain ⟨G', k1, k2⟩ := C41_write_read e (F.take p) f t' u ⟨hw, by rw [← he]; exact hfit, hst, by rw [← he]; omega, by omega, by omega, htab⟩
    hpf ⟨by omega, by omega, hG'⟩ hv hd hc
  rw [hX, ← he, writeTag, hwt] at k1
  injection k1 with _ k1
  subst k1
  rw [hX] at k2
  exact k2

/-- The movie header is too short: its duration is that of the bytes of the following atom. -/
def briefMvhd : Bytes :=
  (⟨false, cc 'f' 't' 'y' 'p', []⟩ : Box).ser ++
  (⟨false, cc 'm' 'o' 'o' 'v', (⟨false, cc 'm' 'v' 'h' 'd', List.replicate 12 0⟩ : Box).ser ++
    (⟨false, cc 'u' 'd' 't' 'a', []⟩ : Box).ser⟩ : Box).ser

theorem briefMvhd_top : TopLevel briefMvhd 0 [⟨false, cc 'f' 't' 'y' 'p', []⟩] ⟨false, cc 'm' 'o' 'o' 'v',
    (⟨false, cc 'm' 'v' 'h' 'd', List.replicate 12 0⟩ : Box).ser ++ (⟨false, cc 'u' 'd' 't' 'a', []⟩ : Box).ser⟩ [] :=
  ⟨Nat.zero_le _, by decide +kernel, by decide +kernel, by decide +kernel, by decide +kernel⟩

/-- **C81.** Without overflow checks the duration is taken from the size of the user data, so that writing changes it. With overflow checks
reading panics. -/
theorem C81_duration :
    readTag { env62 with checked := false } briefMvhd 0 = .ok { info := { duration := some 246189708125000000 } } ∧
    (writeTag { env62 with checked := false } briefMvhd 0 { atoms := atomsW }).1 = .ok () ∧
    readTag { env62 with checked := false } (writeTag { env62 with checked := false } briefMvhd 0 { atoms := atomsW }).2 0 =
      .ok { info := { duration := some 12386903553459119 }, atoms := atomsW } ∧
    readTag env62 briefMvhd 0 = .panic := by decide +kernel

/-- **C81** is false, with and without overflow checks. -/
theorem C81_refuted : ¬ ReadsAgain := by
  intro h
  obtain ⟨h1, h2, h3⟩ := C79_unreadable
  obtain ⟨h4, h5, h6⟩ := h3 true
  rcases hw : writeTag { env62 with checked := true } longFree 0 { atoms := atomsW } with ⟨o, G⟩
  rw [hw] at h5 h6
  dsimp only at h5 h6
  subst h5
  have hG : G.length < 1000 := by
    have : (writeTag { env62 with checked := true } longFree 0 { atoms := atomsW }).2.length < 1000 := by decide +kernel
    rwa [hw] at this
  have := h { env62 with checked := true } longFree 0 _ { atoms := atomsW } _ _ _ G (by decide +kernel) (by show _ ≤ 2^62 - 1; omega) (by decide)
    (by decide +kernel) (by show _ < 1000; omega) h2 h1 h4 hw (fun a ha => (atomsW_store a ha).1) (fun a ha => (atomsW_store a ha).2)
    (by decide)
  rw [h6] at this
  cases this

theorem all2_mem {α β} {R : α → β → Prop} : ∀ {l : List α} {bs : List β}, All2 R l bs → ∀ a ∈ l, ∃ b, R a b
  | a :: l, b :: bs, h, x, hx => by
    rcases List.mem_cons.mp hx with rfl | hx
    · exact ⟨b, h.1⟩
    · exact all2_mem h.2 x hx

theorem complete_of {f : File} {t : Tag} (h : f.Content t) : Complete f.moov := by
  obtain ⟨d, a, i, ⟨hd, ⟨as, ha, -⟩, -⟩, -⟩ := h
  exact ⟨hd.1, fun k hk s hs => all2_mem ha s (List.mem_filterMap.mpr ⟨k, hk, hs⟩)⟩

theorem fileW_low : fileW.moov.Low := by
  intro ext t h
  simp only [fileW, List.mem_cons, List.not_mem_nil, or_false, reduceCtorEq, false_or, MoovKid.trak.injEq] at h
  rcases h with ⟨rfl, rfl⟩ | ⟨rfl, rfl⟩ <;> decide +kernel

/-- The hypotheses of C81_partial hold of the file of C41 ff. and its items. -/
example : Complete fileW.moov ∧ fileW.moov.Low ∧ fileW.PutFits atomsW ∧ (fileW.ser.length : Int) + fileW.growth atomsW ≤ env62.maxPos :=
  ⟨complete_of fileW_content, fileW_low, fileW_rewritable.fits, by decide +kernel⟩

end Mp4.Props
