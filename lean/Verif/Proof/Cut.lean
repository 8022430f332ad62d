import Verif.Proof.WriteSpec
import Verif.Proof.Trunc
import Verif.Proof.ReadErr
/-
Writing to a file the last atom of which is incomplete.
-/
namespace Mp4
open Spec

/-- As `walk_kids`, where only the head of the last child `k` has to be there: the loop ends behind it because the sum of the
sizes exceeds the limit. -/
theorem walk_kids_last {κ σ} {box : κ → Box} {handle : σ → Head → P σ} {step : σ → Nat → κ → σ}
    {e : Env} {F : Bytes} {limit : E Nat} {lim : Nat} (hF : F.length < 2^63) (hlim : limit e = .ok lim) (k : κ)
    (hk : (box k).Fits) :
    ∀ (ks : List κ) (fuel parsed p : Nat) (s : σ),
    (∀ k ∈ ks, (box k).Fits) →
    (∀ k ∈ ks, ∀ q s, At F q (box k).ser →
      handle s (box k).hd e F (q + (box k).headLen) = .ok (step s q k, q + (box k).ser.length)) →
    (∀ s, handle s (box k).hd e F (p + (serL box ks).length + (box k).headLen)
      = .ok (step s (p + (serL box ks).length) k, p + (serL box ks).length + (box k).ser.length)) →
    At F p (serL box ks) → At F (p + (serL box ks).length) (box k).head → ks.length + 1 < fuel →
    parsed + (serL box ks).length < lim → lim ≤ parsed + (serL box ks).length + (box k).ser.length →
    parsed + (serL box ks).length + (box k).ser.length < 2^64 →
    walk limit handle fuel s parsed e F p
      = .ok (step (foldAt box step s p ks) (p + (serL box ks).length) k, p + (serL box ks).length + (box k).ser.length) := by
  intro ks
  induction ks with
  | nil =>
    intro fuel parsed p s _ _ hlast _ hat hf h1 h2 h3
    simp only [serL_nil, List.length_nil, Nat.add_zero] at hlast hat h1 h2 h3 ⊢
    obtain ⟨fuel, rfl⟩ : ∃ n, fuel = n + 2 := ⟨fuel - 2, by simp at hf; omega⟩
    have hsl := (box k).ser_length
    rw [walk, P.bind_ok (E.p_ok hlim F p), P.if_apply, if_pos h1]
    rw [P.bind_ok (parseHead_head hat hk (by omega) e), P.bind_ok (hlast s)]
    have ha : addU parsed (box k).hd.size.len e = .ok (parsed + (box k).ser.length) := by
      have : (box k).hd.size.len = (box k).ser.length := by rw [hsl]; rfl
      rw [this, addU, if_pos (by omega)]
    rw [P.bind_ok (E.p_ok ha F _), walk, P.bind_ok (E.p_ok hlim F _), P.if_apply, if_neg (by omega)]
    rfl
  | cons x ks ih =>
    intro fuel parsed p s hfit hh hlast hat hath hf h1 h2 h3
    cases fuel with
    | zero => simp at hf
    | succ fuel =>
      rw [serL_cons, List.length_append] at h1 h2 h3 hath hlast ⊢
      rw [serL_cons, At_append] at hat
      have hpos := (box x).headLen_pos
      have hsl := (box x).ser_length
      rw [← Nat.add_assoc] at hath hlast ⊢
      rw [walk, P.bind_ok (E.p_ok hlim F p), P.if_apply, if_pos (by omega)]
      rw [P.bind_ok (parseHead_box hat.1 (hfit x (by simp)) hF e)]
      rw [P.bind_ok (hh x (by simp) p s hat.1)]
      have ha : addU parsed (box x).hd.size.len e = .ok (parsed + (box x).ser.length) := by
        have : (box x).hd.size.len = (box x).ser.length := by rw [hsl]; rfl
        rw [this, addU, if_pos (by omega)]
      rw [P.bind_ok (E.p_ok ha F _)]
      exact ih fuel _ _ _ (fun k hk => hfit k (by simp [hk])) (fun k hk => hh k (by simp [hk])) hlast hat.2 hath
        (by simpa using hf) (by omega) (by omega) (by omega)

/-- Passing over an atom that is not the movie atom, there or not. -/
theorem topHandle_seek {e F q s} {b : Box} (hm : q + b.ser.length ≤ e.maxPos) (hl : q + b.ser.length < 2^63)
    (hn : b.fc ≠ cc 'm' 'o' 'o' 'v') :
    topHandle s b.hd e F (q + b.headLen)
      = .ok (⟨s.moov, (leafAt MEDIA_DATA q b).or s.mdat⟩, q + b.ser.length) := by
  have hsl := b.ser_length
  rw [topHandle, if_neg (show ¬ b.hd.fourcc = MOVIE from hn), leafAt]
  by_cases hmd : b.fc = MEDIA_DATA
  · rw [if_pos (show b.hd.fourcc = MEDIA_DATA from hmd), if_pos hmd]
    have he : (⟨q, b.size⟩ : AtomBounds).pos + (⟨q, b.size⟩ : AtomBounds).size.len = q + b.ser.length := by
      rw [hsl]; rfl
    refine P.bind_ok (f := fun a => pure { s with mdat := some a }) ?_
    show findLeaf b.size e F (q + b.headLen) = .ok (⟨q, b.size⟩, q + b.ser.length)
    rw [findLeaf, P.bind_ok (findBounds_box b e), P.bind_ok (seekToEnd_ok _ (by omega) he (by omega) (by omega))]; rfl
  · rw [if_neg (show ¬ b.hd.fourcc = MEDIA_DATA from hmd), if_neg hmd]
    have hc : b.hd.size.contentLen e = .ok b.body.length := b.contentLen e
    have : skipContent b.hd e F (q + b.headLen) = .ok ((), q + b.ser.length) := by
      rw [skipContent, P.bind_ok (E.p_ok hc F _), asI64_small (by omega), seekCur_ok (by omega)]
      congr 2
      omega
    rw [P.bind_ok this]; rfl

/-- The search finds the same as in the complete file. -/
theorem findTop_cut {e : Env} {f : File} {X Y F : Bytes} {A : List Box} {b : Box}
    (hFdef : F = X ++ f.ftypBox.ser ++ serL id f.pre ++ f.moovBox.ser ++ (serL id A ++ b.head ++ Y))
    (hF : Fit e (X ++ f.ser)) (hw : f.WF) (hpost : f.post = A ++ [b]) (hY : Y.length ≤ b.body.length) :
    findTop e F X.length = .ok ((f.mdatPos X.length, moovB (f.moovPos X.length) f.moovBox f.moov), X.length + f.ser.length) := by
  obtain ⟨h1, h2, h3, h4, h5⟩ := hw
  generalize hks : f.pre.map Kid.raw ++ (Kid.node f.moovExt f.moov :: A.map Kid.raw) = ks
  have hser : serL (Kid.box (cc 'm' 'o' 'o' 'v') Spec.Moov.ser) ks = serL id f.pre ++ f.moovBox.ser ++ serL id A := by
    rw [← hks, serL_append, serL_cons, serL_raw, serL_raw]
    simp only [List.append_assoc]; rfl
  have hF' : F = X ++ (f.ftypBox.ser ++ (serL (Kid.box (cc 'm' 'o' 'o' 'v') Spec.Moov.ser) ks ++ (b.head ++ Y))) := by
    rw [hFdef, hser]; simp only [List.append_assoc]
  have hbl := b.ser_length
  have hfull : (X ++ f.ser).length = X.length + f.ftypBox.ser.length + (serL (Kid.box (cc 'm' 'o' 'o' 'v') Spec.Moov.ser) ks).length + b.ser.length := by
    rw [hser]
    simp only [File.ser, hpost, serL_append, serL_cons, serL_nil, List.length_append, List.length_nil, id]
    omega
  have hlen : F.length = X.length + f.ftypBox.ser.length + (serL (Kid.box (cc 'm' 'o' 'o' 'v') Spec.Moov.ser) ks).length + b.headLen + Y.length := by
    rw [hF']; simp only [List.length_append, Box.head_length]; omega
  have hfit : Fit e F := ⟨by have := hF.pos; omega, by have := hF.len; omega, by have := hF.fuel; omega⟩
  have hat : At F X.length (f.ftypBox.ser ++ (serL (Kid.box (cc 'm' 'o' 'o' 'v') Spec.Moov.ser) ks ++ (b.head ++ Y))) :=
    At_intro' X [] (by simp [hF']) rfl
  have a1 := hat.left
  have a2 := (hat.right rfl).left
  have a3 := ((hat.right rfl).right rfl).left
  have hft : parseFtyp e F X.length = .ok (f.ftyp, X.length + f.ftypBox.ser.length) := parseFtyp_at hfit h1 a1
  have hrem := remaining_at hfit (show X.length + f.ftypBox.ser.length ≤ F.length by omega)
  have hhp := b.headLen_pos
  have hloop : loop (pure (F.length - (X.length + f.ftypBox.ser.length))) topHandle (⟨none, none⟩ : TopBounds) 0 e F (X.length + f.ftypBox.ser.length)
      = .ok (topStep (foldAt (Kid.box (cc 'm' 'o' 'o' 'v') Spec.Moov.ser) topStep (⟨none, none⟩ : TopBounds) (X.length + f.ftypBox.ser.length) ks)
        (X.length + f.ftypBox.ser.length + (serL (Kid.box (cc 'm' 'o' 'o' 'v') Spec.Moov.ser) ks).length) (Kid.raw b),
        X.length + f.ftypBox.ser.length + (serL (Kid.box (cc 'm' 'o' 'o' 'v') Spec.Moov.ser) ks).length + b.ser.length) := by
    rw [loop, P.bind_ok (show getFuel e F _ = .ok (e.fuel, _) from rfl)]
    refine walk_kids_last (box := Kid.box (cc 'm' 'o' 'o' 'v') Spec.Moov.ser) (step := topStep) hfit.len rfl (Kid.raw b) ?_ ks _ 0 _ _
      ?_ ?_ ?_ a2 a3 ?_ ?_ ?_ ?_
    · exact (h5 b (by rw [hpost]; simp)).1
    · intro k hk
      rw [← hks, List.mem_append, List.mem_cons, List.mem_map, List.mem_map] at hk
      rcases hk with ⟨b, hb, rfl⟩ | rfl | ⟨b, hb, rfl⟩
      · exact (h4 b hb).1
      · exact h2
      · exact (h5 b (by rw [hpost]; simp [hb])).1
    · intro k hk q s hat
      rw [← hks, List.mem_append, List.mem_cons, List.mem_map, List.mem_map] at hk
      rcases hk with ⟨b, hb, rfl⟩ | rfl | ⟨b, hb, rfl⟩
      · exact topHandle_other hfit hat (h4 b hb).2
      · have hm := findMoov_at (b := ⟨f.moovExt, cc 'm' 'o' 'o' 'v', f.moov.ser⟩) hfit rfl h3 hat
        rw [topHandle, if_pos (show (Kid.box (cc 'm' 'o' 'o' 'v') Spec.Moov.ser (.node f.moovExt f.moov)).hd.fourcc = MOVIE from rfl)]
        exact P.bind_ok hm
      · exact topHandle_other hfit hat (h5 b (by rw [hpost]; simp [hb])).2
    · intro s
      exact topHandle_seek (b := b) (by have := hF.pos; omega) (by have := hF.len; omega) (h5 b (by rw [hpost]; simp)).2
    · have := serL_length_le (Kid.box (cc 'm' 'o' 'o' 'v') Spec.Moov.ser) ks
      have := hF.fuel
      omega
    · omega
    · show _ ≤ _ + b.ser.length
      omega
    · have := hF.len
      show _ + b.ser.length < _
      omega
  rw [findTop, P.bind_ok hft, P.bind_ok hrem]
  refine (P.bind_ok hloop).trans ?_
  have hend : X.length + f.ftypBox.ser.length + (serL (Kid.box (cc 'm' 'o' 'o' 'v') Spec.Moov.ser) ks).length + b.ser.length
      = X.length + f.ser.length := by
    rw [← hfull, List.length_append]
  have hst : topStep (foldAt (Kid.box (cc 'm' 'o' 'o' 'v') Spec.Moov.ser) topStep (⟨none, none⟩ : TopBounds) (X.length + f.ftypBox.ser.length) ks)
      (X.length + f.ftypBox.ser.length + (serL (Kid.box (cc 'm' 'o' 'o' 'v') Spec.Moov.ser) ks).length) (Kid.raw b)
      = foldAt (Kid.box (cc 'm' 'o' 'o' 'v') Spec.Moov.ser) topStep (⟨none, none⟩ : TopBounds) (X.length + f.ftypBox.ser.length)
        (f.pre.map Kid.raw ++ (Kid.node f.moovExt f.moov :: f.post.map Kid.raw)) := by
    rw [hpost, List.map_append, ← List.cons_append, ← List.append_assoc, hks, foldAt_append]
    rfl
  rw [hst]
  rw [foldAt_append, topStep_raw, foldAt, topStep_raw, serL_raw, topStep]
  simp only [Option.or_none]
  refine Eq.trans ?_ (congrArg (fun n => Out.ok ((f.mdatPos X.length, moovB (f.moovPos X.length) f.moovBox f.moov), n)) hend)
  rfl

theorem topHandle_findTop {e : Env} {F : Bytes} {p q : Nat} {t : Str} {n : Nat} {er : ErrKind} (h1 : parseFtyp e F p = .ok (t, q))
    (h2 : remainingStreamLen e F q = .ok (n, q)) (h3 : loop (pure n) topHandle (⟨none, none⟩ : TopBounds) 0 e F q = .err er) :
    findTop e F p = .err er := by
  rw [findTop, P.bind_ok h1, P.bind_ok h2]
  exact P.bind_err h3

/-- Writing to a file of which the end `B` is missing, which is a part of the content of the last atom. -/
theorem writeTagTo_cut {e : Env} {f : File} {X F B : Bytes} {atoms : List AtomData} {A : List Box} {b : Box}
    (hF : Fit e (X ++ f.ser)) (hw : f.WF)
    (hs : ∀ a ∈ atoms, Storable a) (ho : (X ++ f.ser).length < 2^62) (hn : (X ++ (f.put atoms).ser).length < 2^62)
    (hmax : (X ++ (f.put atoms).ser).length ≤ e.maxPos) (ht : f.MediaBehind → f.moov.Tables)
    (hsplit : X ++ f.ser = F ++ B) (hpost : f.post = A ++ [b]) (hB : B.length ≤ b.body.length) :
    ∃ s, writeTagTo e F X.length atoms = (.ok (), s) ∧ X ++ (f.put atoms).ser = s.file ++ B ∧
      (∀ op ∈ s.trace, f.moovPos X.length ≤ op.lo) ∧ s.trace.foldl Op.apply F = s.file := by
  obtain ⟨Y, hY⟩ : ∃ Y, Y = b.body.take (b.body.length - B.length) := ⟨_, rfl⟩
  have hYl : Y.length = b.body.length - B.length := by rw [hY, List.length_take]; omega
  have hbody : b.body = Y ++ b.body.drop (b.body.length - B.length) := by rw [hY, List.take_append_drop]
  have hpser : serL id f.post = serL id A ++ b.head ++ (Y ++ b.body.drop (b.body.length - B.length)) := by
    rw [hpost, serL_append, serL_cons, serL_nil, ← hbody]
    simp only [id, Box.ser, List.append_nil, List.append_assoc]
  have hsp : (X ++ f.ftypBox.ser ++ serL id f.pre ++ f.moovBox.ser ++ (serL id A ++ b.head ++ Y)) ++ b.body.drop (b.body.length - B.length)
      = F ++ B := by
    rw [← hsplit, File.ser, hpser]; simp only [List.append_assoc]
  obtain ⟨hFd, hBd⟩ := List.append_inj' hsp (by rw [List.length_drop]; omega)
  have hN : X ++ (f.put atoms).ser
      = (X ++ f.ftypBox.ser ++ serL id f.pre ++ (f.put atoms).moovBox.ser ++ (serL id A ++ b.head ++ Y)) ++ B := by
    have : (f.put atoms).ser = f.ftypBox.ser ++ serL id f.pre ++ (f.put atoms).moovBox.ser ++ serL id f.post := rfl
    rw [this, hpser, hBd]; simp only [List.append_assoc]
  have hNl := congrArg List.length hN
  have hFl := congrArg List.length hsplit
  rw [List.length_append (bs := B)] at hNl hFl
  have hfit : Fit e F := ⟨by have := hF.pos; omega, by have := hF.len; omega, by have := hF.fuel; omega⟩
  obtain ⟨s, g1, g2, -, -, g3, g4⟩ := writeTagTo_tail hFd.symm hfit hw.2.2.1 (findTop_cut hFd.symm hF hw hpost (by omega)) hs (by omega)
    (by omega) (by omega) ht
  exact ⟨s, g1, by rw [hN, g2], g3, g4⟩

/-- As `walk_kids`, where the head of the next child cannot be read. -/
theorem walk_kids_err {κ σ} {box : κ → Box} {handle : σ → Head → P σ} {step : σ → Nat → κ → σ}
    {e : Env} {F : Bytes} {limit : E Nat} {lim : Nat} {er : ErrKind} (hF : F.length < 2^63) (hlim : limit e = .ok lim) :
    ∀ (ks : List κ) (fuel parsed p : Nat) (s : σ),
    (∀ k ∈ ks, (box k).Fits) →
    (∀ k ∈ ks, ∀ q s, At F q (box k).ser →
      handle s (box k).hd e F (q + (box k).headLen) = .ok (step s q k, q + (box k).ser.length)) →
    At F p (serL box ks) → parseHead e F (p + (serL box ks).length) = .err er → ks.length < fuel →
    parsed + (serL box ks).length < lim → lim < 2^64 →
    walk limit handle fuel s parsed e F p = .err er := by
  intro ks
  induction ks with
  | nil =>
    intro fuel parsed p s _ _ _ hat hf h1 h2
    simp only [serL_nil, List.length_nil, Nat.add_zero] at hat h1 h2 ⊢
    obtain ⟨fuel, rfl⟩ : ∃ n, fuel = n + 1 := ⟨fuel - 1, by simp at hf; omega⟩
    rw [walk, P.bind_ok (E.p_ok hlim F p), P.if_apply, if_pos h1, P.bind_err hat]
  | cons x ks ih =>
    intro fuel parsed p s hfit hh hat hath hf h1 h2
    cases fuel with
    | zero => simp at hf
    | succ fuel =>
      rw [serL_cons, List.length_append] at h1 hath
      rw [serL_cons, At_append] at hat
      have hpos := (box x).headLen_pos
      have hsl := (box x).ser_length
      rw [← Nat.add_assoc] at hath
      rw [walk, P.bind_ok (E.p_ok hlim F p), P.if_apply, if_pos (by omega)]
      rw [P.bind_ok (parseHead_box hat.1 (hfit x (by simp)) hF e)]
      rw [P.bind_ok (hh x (by simp) p s hat.1)]
      have ha : addU parsed (box x).hd.size.len e = .ok (parsed + (box x).ser.length) := by
        have : (box x).hd.size.len = (box x).ser.length := by rw [hsl]; rfl
        rw [this, addU, if_pos (by omega)]
      rw [P.bind_ok (E.p_ok ha F _)]
      exact ih fuel _ _ _ (fun k hk => hfit k (by simp [hk])) (fun k hk => hh k (by simp [hk])) hat.2 hath
        (by simpa using hf) (by omega) (by omega)

theorem parseHead_le {e F p hd q} (h1 : parseHead e F p = .ok (hd, q)) : q ≤ F.length := by
  rw [parseHead] at h1
  obtain ⟨_, r1, g1, h1⟩ := P.bind_inv h1
  obtain ⟨_, r2, g2, h1⟩ := P.bind_inv h1
  have a2 := readExact_le g2 (by decide)
  dsimp only at h1
  split at h1
  · obtain ⟨_, r3, g3, h1⟩ := P.bind_inv h1
    obtain ⟨-, rfl⟩ := P.pure_inv h1
    rw [readU64] at g3
    obtain ⟨_, r4, g4, g3⟩ := P.bind_inv g3
    obtain ⟨-, rfl⟩ := P.pure_inv g3
    exact readExact_le g4 (by decide)
  · split at h1
    · simp [fail] at h1
    · obtain ⟨-, rfl⟩ := P.pure_inv h1
      exact a2

/-- An incomplete head is reported. -/
theorem parseHead_cut {e : Env} {F B : Bytes} {p : Nat} {b : Box} (hat : At (F ++ B) p b.head) (hf : b.Fits)
    (hle : b.headLen + b.body.length < 2^64) (hl : F.length < p + b.headLen) : parseHead e F p = .err .io := by
  have hfull := parseHead_head hat hf hle e
  have := Mono.parseHead e (F ++ B) F.length p
  rw [List.take_left, hfull] at this
  rcases this with h | h
  · have := parseHead_le h; omega
  · exact h

/-- Writing to a file that ends inside of the head of an atom behind the movie atom. -/
theorem writeTagTo_cut_head {e : Env} {f : File} {X F B : Bytes} {atoms : List AtomData} {A : List Box} {b : Box}
    (hF : Fit e (X ++ f.ser)) (hw : f.WF) (hsplit : X ++ f.ser = F ++ B) (hpost : f.post = A ++ [b])
    (hB : b.body.length < B.length) (hB' : B.length < b.ser.length) :
    ∃ s, writeTagTo e F X.length atoms = (.err .io, s) ∧ s.file = F ∧ s.trace = [] := by
  obtain ⟨h1, h2, h3, h4, h5⟩ := hw
  generalize hks : f.pre.map Kid.raw ++ (Kid.node f.moovExt f.moov :: A.map Kid.raw) = ks
  have hser : serL (Kid.box (cc 'm' 'o' 'o' 'v') Spec.Moov.ser) ks = serL id f.pre ++ f.moovBox.ser ++ serL id A := by
    rw [← hks, serL_append, serL_cons, serL_raw, serL_raw]
    simp only [List.append_assoc]; rfl
  have hF' : F ++ B = X ++ (f.ftypBox.ser ++ (serL (Kid.box (cc 'm' 'o' 'o' 'v') Spec.Moov.ser) ks ++ (b.head ++ b.body))) := by
    rw [← hsplit, hser, File.ser, hpost, serL_append, serL_cons, serL_nil]
    simp only [List.append_assoc, id, Box.ser, List.append_nil]
  have hbl := b.ser_length
  have hlen := congrArg List.length hF'
  have hFl := congrArg List.length hsplit
  simp only [List.length_append, Box.head_length] at hlen
  rw [List.length_append (bs := B)] at hFl
  have hfit : Fit e F := ⟨by have := hF.pos; omega, by have := hF.len; omega, by have := hF.fuel; omega⟩
  have hpre : F = X ++ (f.ftypBox.ser ++ serL (Kid.box (cc 'm' 'o' 'o' 'v') Spec.Moov.ser) ks)
      ++ F.drop (X.length + f.ftypBox.ser.length + (serL (Kid.box (cc 'm' 'o' 'o' 'v') Spec.Moov.ser) ks).length) := by
    have h := congrArg (List.take (X.length + f.ftypBox.ser.length + (serL (Kid.box (cc 'm' 'o' 'o' 'v') Spec.Moov.ser) ks).length)) hF'
    rw [List.take_append_of_le_length (by omega)] at h
    have h' : X ++ (f.ftypBox.ser ++ (serL (Kid.box (cc 'm' 'o' 'o' 'v') Spec.Moov.ser) ks ++ (b.head ++ b.body)))
      = (X ++ (f.ftypBox.ser ++ serL (Kid.box (cc 'm' 'o' 'o' 'v') Spec.Moov.ser) ks)) ++ (b.head ++ b.body) := by
      simp only [List.append_assoc]
    rw [h', List.take_left' (by simp only [List.length_append]; omega)] at h
    rw [← h, List.take_append_drop]
  have hat : At F X.length (f.ftypBox.ser ++ serL (Kid.box (cc 'm' 'o' 'o' 'v') Spec.Moov.ser) ks) :=
    At_intro' X _ hpre rfl
  have hat' : At (F ++ B) (X.length + f.ftypBox.ser.length + (serL (Kid.box (cc 'm' 'o' 'o' 'v') Spec.Moov.ser) ks).length) b.head :=
    At_intro' (X ++ (f.ftypBox.ser ++ serL (Kid.box (cc 'm' 'o' 'o' 'v') Spec.Moov.ser) ks)) b.body
      (by rw [hF']; simp only [List.append_assoc]) (by simp only [List.length_append]; omega)
  have a1 := hat.left
  have a2 := hat.right rfl
  have hft : parseFtyp e F X.length = .ok (f.ftyp, X.length + f.ftypBox.ser.length) := parseFtyp_at hfit h1 a1
  have hrem := remaining_at hfit (show X.length + f.ftypBox.ser.length ≤ F.length by omega)
  have hhp := b.headLen_pos
  have hhead : parseHead e F (X.length + f.ftypBox.ser.length + (serL (Kid.box (cc 'm' 'o' 'o' 'v') Spec.Moov.ser) ks).length) = .err .io :=
    parseHead_cut hat' (h5 b (by rw [hpost]; simp)).1 (by have := hF.len; omega) (by omega)
  have hloop : loop (pure (F.length - (X.length + f.ftypBox.ser.length))) topHandle (⟨none, none⟩ : TopBounds) 0 e F (X.length + f.ftypBox.ser.length)
      = .err .io := by
    rw [loop, P.bind_ok (show getFuel e F _ = .ok (e.fuel, _) from rfl)]
    refine walk_kids_err (box := Kid.box (cc 'm' 'o' 'o' 'v') Spec.Moov.ser) (step := topStep) hfit.len rfl ks _ 0 _ _
      ?_ ?_ a2 hhead ?_ ?_ ?_
    · intro k hk
      rw [← hks, List.mem_append, List.mem_cons, List.mem_map, List.mem_map] at hk
      rcases hk with ⟨b, hb, rfl⟩ | rfl | ⟨b, hb, rfl⟩
      · exact (h4 b hb).1
      · exact h2
      · exact (h5 b (by rw [hpost]; simp [hb])).1
    · intro k hk q s hat
      rw [← hks, List.mem_append, List.mem_cons, List.mem_map, List.mem_map] at hk
      rcases hk with ⟨b, hb, rfl⟩ | rfl | ⟨b, hb, rfl⟩
      · exact topHandle_other hfit hat (h4 b hb).2
      · have hm := findMoov_at (b := ⟨f.moovExt, cc 'm' 'o' 'o' 'v', f.moov.ser⟩) hfit rfl h3 hat
        rw [topHandle, if_pos (show (Kid.box (cc 'm' 'o' 'o' 'v') Spec.Moov.ser (.node f.moovExt f.moov)).hd.fourcc = MOVIE from rfl)]
        exact P.bind_ok hm
      · exact topHandle_other hfit hat (h5 b (by rw [hpost]; simp [hb])).2
    · have := serL_length_le (Kid.box (cc 'm' 'o' 'o' 'v') Spec.Moov.ser) ks
      have := hF.fuel
      omega
    · omega
    · have := hF.len
      omega
  have hfind := topHandle_findTop hft hrem hloop
  have hprep : preparePhase atoms e F X.length = .err .io := by
    unfold preparePhase
    exact P.bind_err hfind
  refine ⟨_, by rw [writeTagTo, hprep], rfl, rfl⟩

end Mp4
