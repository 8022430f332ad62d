import Verif.Spec.Multi
import Verif.Proof.WriteSpec
/-
Writing to a file with several movie atoms.
-/
namespace Mp4
open Spec

theorem topStep_mdat (ks : List TopKid) (s : TopBounds) (p : Nat) :
    (foldAt (Kid.box (cc 'm' 'o' 'o' 'v') Moov.ser) topStep s p ks).mdat
      = (lastAt id (leafAt MEDIA_DATA) p (ks.map (Kid.box (cc 'm' 'o' 'o' 'v') Moov.ser))).or s.mdat := by
  induction ks generalizing s p with
  | nil => rfl
  | cons k ks ih =>
    rw [List.map_cons, foldAt, ih, lastAt, Option.or_assoc]
    cases k with
    | raw b => rfl
    | node ext m =>
      rw [leafAt, if_neg (show ¬ (Kid.box (cc 'm' 'o' 'o' 'v') Moov.ser (.node ext m)).fc = MEDIA_DATA by
        show ¬ cc 'm' 'o' 'o' 'v' = MEDIA_DATA
        decide)]
      rfl

/-- The search finds the last movie atom. -/
theorem findTop_last {e : Env} {f : File} {ks : List TopKid} {X : Bytes} (hF : Fit e (X ++ f.ser)) (h1 : f.ftypBox.Fits)
    (h2 : f.moovBox.Fits) (h3 : f.moov.WF) (hpre : f.pre = ks.map (Kid.box (cc 'm' 'o' 'o' 'v') Moov.ser))
    (h4 : ∀ k ∈ ks, (k.box (cc 'm' 'o' 'o' 'v') Moov.ser).Fits ∧
      match k with
      | .node _ m => m.WF
      | .raw b => b.fc ≠ cc 'm' 'o' 'o' 'v')
    (h5 : ∀ b ∈ f.post, b.Fits ∧ b.fc ≠ cc 'm' 'o' 'o' 'v') :
    findTop e (X ++ f.ser) X.length
      = .ok ((f.mdatPos X.length, moovB (f.moovPos X.length) f.moovBox f.moov), X.length + f.ser.length) := by
  have hat : At (X ++ f.ser) X.length f.ser := At_intro' X [] (by simp) rfl
  have hks : serL (Kid.box (cc 'm' 'o' 'o' 'v') Moov.ser) ks = serL id f.pre := by rw [hpre, serL_map]; rfl
  generalize hall : ks ++ (Kid.node f.moovExt f.moov :: f.post.map Kid.raw) = all
  have hser : f.ser = f.ftypBox.ser ++ serL (Kid.box (cc 'm' 'o' 'o' 'v') Moov.ser) all := by
    rw [← hall, serL_append, serL_cons, serL_raw, hks]
    simp only [File.ser, List.append_assoc]; rfl
  have hat' := hser ▸ hat
  have a1 := hat'.left
  have a2 := hat'.right rfl
  rw [← hser] at a1 a2
  have hle := hat.le
  have hft : parseFtyp e (X ++ f.ser) X.length = .ok (f.ftyp, X.length + f.ftypBox.ser.length) := parseFtyp_at hF h1 a1
  have hrem := remaining_at hF (show X.length + f.ftypBox.ser.length ≤ (X ++ f.ser).length by
    have := a2.le; omega)
  have hl : (X ++ f.ser).length - (X.length + f.ftypBox.ser.length)
      = (serL (Kid.box (cc 'm' 'o' 'o' 'v') Moov.ser) all).length := by
    have h : f.ser.length = _ := congrArg List.length hser
    rw [List.length_append] at h
    rw [List.length_append]
    omega
  rw [hl] at hrem
  have hmem : ∀ k ∈ all, (k.box (cc 'm' 'o' 'o' 'v') Moov.ser).Fits ∧
      match k with
      | .node _ m => m.WF
      | .raw b => b.fc ≠ cc 'm' 'o' 'o' 'v' := by
    intro k hk
    rw [← hall, List.mem_append, List.mem_cons, List.mem_map] at hk
    rcases hk with hk | rfl | ⟨b, hb, rfl⟩
    · exact h4 k hk
    · exact ⟨h2, h3⟩
    · exact h5 b hb
  have hloop := loop_kids (box := Kid.box (cc 'm' 'o' 'o' 'v') Moov.ser) (ks := all) (parsed := 0)
    (limit := pure (serL (Kid.box (cc 'm' 'o' 'o' 'v') Moov.ser) all).length)
    (handle := topHandle) (step := topStep) (⟨none, none⟩ : TopBounds) hF (by rw [Nat.zero_add]; rfl)
    (fun k hk => (hmem k hk).1)
    (by
      intro k hk q s hat
      have := (hmem k hk).2
      cases k with
      | raw b => exact topHandle_other hF hat this
      | node ext m =>
        have hm := findMoov_at (b := ⟨ext, cc 'm' 'o' 'o' 'v', m.ser⟩) hF rfl this hat
        rw [topHandle, if_pos (show (Kid.box (cc 'm' 'o' 'o' 'v') Moov.ser (.node ext m)).hd.fourcc = MOVIE from rfl)]
        exact P.bind_ok hm)
    a2 (Nat.zero_le _)
  rw [findTop, P.bind_ok hft, P.bind_ok hrem]
  refine (P.bind_ok hloop).trans ?_
  have hend : X.length + f.ftypBox.ser.length + (serL (Kid.box (cc 'm' 'o' 'o' 'v') Moov.ser) all).length = X.length + f.ser.length := by
    have h : f.ser.length = _ := congrArg List.length hser
    rw [List.length_append] at h
    omega
  have hst : foldAt (Kid.box (cc 'm' 'o' 'o' 'v') Moov.ser) topStep (⟨none, none⟩ : TopBounds) (X.length + f.ftypBox.ser.length) all
      = ⟨some (moovB (f.moovPos X.length) f.moovBox f.moov),
        (lastAt id (leafAt MEDIA_DATA) (f.moovPos X.length + f.moovBox.ser.length) f.post).or
          (lastAt id (leafAt MEDIA_DATA) (X.length + f.ftypBox.ser.length) f.pre)⟩ := by
    rw [← hall, foldAt_append, foldAt, topStep_raw, hks, topStep]
    simp only [topStep_mdat, Option.or_none, ← hpre]
    rfl
  rw [hend, hst]
  rfl

theorem movies_front (g : Movies) : serL id g.front = serL id g.file.pre ++ g.file.moovBox.ser ++ serL id g.file.post ++
    serL (Kid.box (cc 'm' 'o' 'o' 'v') Moov.ser) g.mid := by
  rw [Movies.front, serL_append, serL_append, serL_cons, serL_map]
  simp only [List.append_assoc]; rfl

theorem movies_ser (g : Movies) : g.ser = g.byLast.ser := by
  rw [File.ser, show g.byLast.pre = g.front from rfl, movies_front]
  simp only [Movies.ser, File.ser, List.append_assoc]; rfl

/-- The search in a file with several movie atoms. -/
theorem findTop_movies {e : Env} {g : Movies} {X : Bytes} (hF : Fit e (X ++ g.byLast.ser)) (hw : g.WF) :
    findTop e (X ++ g.byLast.ser) X.length = .ok ((g.byLast.mdatPos X.length,
      moovB (g.byLast.moovPos X.length) g.byLast.moovBox g.byLast.moov), X.length + g.byLast.ser.length) := by
  obtain ⟨⟨w1, w2, w3, w4, w5⟩, w6, w7, w8, w9⟩ := hw
  exact findTop_last (f := g.byLast)
    (ks := g.file.pre.map Kid.raw ++ Kid.node g.file.moovExt g.file.moov :: g.file.post.map Kid.raw ++ g.mid) hF w1 w7 w8
    (by
      show g.front = _
      simp only [Movies.front, List.map_append, List.map_cons, List.map_map]
      have : ∀ l : List Box, l.map (Kid.box (cc 'm' 'o' 'o' 'v') Moov.ser ∘ Kid.raw) = l := fun l => by
        induction l with
        | nil => rfl
        | cons b l ih => rw [List.map_cons, ih]; rfl
      rw [this, this]; rfl)
    (by
      intro k hk
      simp only [List.mem_append, List.mem_cons, List.mem_map] at hk
      rcases hk with (⟨b, hb, rfl⟩ | rfl | ⟨b, hb, rfl⟩) | hk
      · exact w4 b hb
      · exact ⟨w2, w3⟩
      · exact w5 b hb
      · exact w6 k hk)
    w9

/-- Writing to a file with several movie atoms. -/
theorem writeTagTo_movies {e : Env} {g : Movies} {X : Bytes} {atoms : List AtomData} (hF : Fit e (X ++ g.ser)) (hw : g.WF)
    (hs : ∀ a ∈ atoms, Storable a) (ho : (X ++ g.ser).length < 2^62) (hn : (X ++ (g.put atoms).ser).length < 2^62)
    (hmax : (X ++ (g.put atoms).ser).length ≤ e.maxPos) (ht : g.byLast.MediaBehind → g.last.Tables) :
    ∃ s, writeTagTo e (X ++ g.ser) X.length atoms = (.ok (), s) ∧ s.file = X ++ (g.put atoms).ser ∧
      (∀ op ∈ s.trace, X.length + (g.file.ser ++ serL (Kid.box (cc 'm' 'o' 'o' 'v') Moov.ser) g.mid).length ≤ op.lo) := by
  have hpre := movies_front g
  have hser := movies_ser g
  have hser' : (g.put atoms).ser = (g.byLast.put atoms).ser := by
    rw [File.ser, show (g.byLast.put atoms).pre = g.front from rfl, hpre]
    simp only [Movies.ser, File.ser, List.append_assoc]; rfl
  rw [hser] at hF ho ⊢
  rw [hser'] at hn hmax ⊢
  have hfind := findTop_movies hF hw
  have hassoc : ∀ f : File, X ++ f.ser = X ++ f.ftypBox.ser ++ serL id f.pre ++ f.moovBox.ser ++ serL id f.post := fun f => by
    simp only [File.ser, List.append_assoc]
  have hput : X ++ (g.byLast.put atoms).ser
      = X ++ g.byLast.ftypBox.ser ++ serL id g.byLast.pre ++ (g.byLast.put atoms).moovBox.ser ++ serL id g.byLast.post := hassoc _
  rw [hput] at hn hmax ⊢
  obtain ⟨s, k1, k2, -, -, k3, -⟩ := writeTagTo_tail (hassoc _) hF hw.2.2.2.1 hfind hs ho hn hmax ht
  refine ⟨s, k1, k2, fun op hop => ?_⟩
  have := k3 op hop
  have hl : g.byLast.moovPos X.length = X.length + (g.file.ser ++ serL (Kid.box (cc 'm' 'o' 'o' 'v') Moov.ser) g.mid).length := by
    unfold File.moovPos
    rw [show g.byLast.pre = g.front from rfl, hpre]
    simp only [File.ser, List.length_append]
    show X.length + g.file.ftypBox.ser.length + _ = _
    omega
  omega

end Mp4
