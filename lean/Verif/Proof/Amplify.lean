import Verif.Proof.NoGrow
/-
Input with a 64 bit size so large that skipping it goes backwards: the same item is read over and over.
-/
namespace Mp4
open Spec

/-- An item that is one byte too short for its only value, a value of `V` zeros, and a `free` atom whose size is that of
an atom that ends at the beginning of the item. -/
def ampItem (V : Nat) : Bytes :=
  headBytes false (cc '©' 'n' 'a' 'm') (23 + V) ++
    (headBytes false (cc 'd' 'a' 't' 'a') (16 + V) ++ (be32 0 ++ (be32 0 ++ (List.replicate V 0 ++
      headBytes true (cc 'f' 'r' 'e' 'e') (2^64 - 24 - V)))))

/-- A file with that item behind `8 + N` bytes of free space. -/
def ampFile (N V : Nat) : Bytes :=
  headBytes false (cc 'f' 't' 'y' 'p') 8 ++ (headBytes false (cc 'm' 'o' 'o' 'v') (84 + N + V) ++
    (headBytes false (cc 'u' 'd' 't' 'a') (76 + N + V) ++ (headBytes false (cc 'm' 'e' 't' 'a') (68 + N + V) ++
    (be32 0 ++ (headBytes false (cc 'i' 'l' 's' 't') (56 + N + V) ++ (headBytes false (cc 'f' 'r' 'e' 'e') (8 + N) ++
    (List.replicate N 0 ++ ampItem V)))))))

theorem ampFile_length (N V : Nat) : (ampFile N V).length = 92 + N + V := by
  simp [ampFile, ampItem, headBytes_length, be32_length, hlen]; omega

section
variable {e : Env} {F : Bytes} {p : Nat}

theorem parseHead_raw {ext : Bool} {fc : Fourcc} {n : Nat} (h : At F p (headBytes ext fc n))
    (hn : n < if ext then 2^64 else 2^32) (h8 : ext = false → 8 ≤ n) :
    parseHead e F p = .ok (⟨⟨ext, n⟩, fc⟩, p + hlen ext) := by
  rw [parseHead]
  cases ext with
  | true =>
    simp only [headBytes, if_true] at h hn
    rw [At_append, At_append] at h
    obtain ⟨⟨h1, h2⟩, h3⟩ := h
    rw [be32_length] at h2
    rw [P.bind_ok (readU32_at h1 (by decide) e), P.bind_ok (readExact_at' (n := 4) h2 rfl e)]
    simp only [fourcc_bytes, if_true]
    have h3' : At F (p + 4 + 4) (be64 n) := by simpa [be32_length, Fourcc.bytes, Nat.add_assoc] using h3
    rw [P.bind_ok (readU64_at h3' hn e)]
    rfl
  | false =>
    have h8 := h8 rfl
    simp only [headBytes, Bool.false_eq_true, if_false] at h hn
    rw [At_append] at h
    obtain ⟨h1, h2⟩ := h
    rw [be32_length] at h2
    rw [P.bind_ok (readU32_at h1 hn e), P.bind_ok (readExact_at' (n := 4) h2 rfl e)]
    simp only [fourcc_bytes]
    rw [if_neg (by omega), if_neg (by omega)]
    rfl

theorem contentLen_raw {ext : Bool} {n : Nat} (h : hlen ext ≤ n) :
    Size.contentLen ⟨ext, n⟩ e = .ok (n - hlen ext) := contentLen_sane h

/-- One iteration of a container loop. -/
theorem walk_one {σ} {limit : E Nat} {handle : σ → Head → P σ} {lim f parsed q : Nat} {s s' : σ} {hd : Head} {r : Nat}
    (hl : limit e = .ok lim) (hlt : parsed < lim) (hp : parseHead e F p = .ok (hd, q)) (hh : handle s hd e F q = .ok (s', r)) {m : Nat}
    (ha : addU parsed hd.size.len e = .ok m) :
    walk limit handle (f+1) s parsed e F p = walk limit handle f s' m e F r := by
  rw [walk, P.bind_ok (E.p_ok hl F p), P.if_apply, if_pos hlt, P.bind_ok hp, P.bind_ok hh, P.bind_ok (E.p_ok ha F _)]

/-- The end of a container loop. -/
theorem walk_end {σ} {limit : E Nat} {handle : σ → Head → P σ} {lim f parsed : Nat} {s : σ}
    (hl : limit e = .ok lim) (hlt : lim ≤ parsed) : walk limit handle (f+1) s parsed e F p = .ok (s, p) := by
  rw [walk, P.bind_ok (E.p_ok hl F p), P.if_apply, if_neg (by omega)]
  rfl

/-- A loop with one iteration. -/
theorem loop_one {σ} {limit : E Nat} {handle : σ → Head → P σ} {lim parsed q : Nat} {s s' : σ} {hd : Head} {r : Nat}
    (hf : 2 ≤ e.fuel) (hl : limit e = .ok lim) (hlt : parsed < lim) (hp : parseHead e F p = .ok (hd, q))
    (hh : handle s hd e F q = .ok (s', r)) (ha : lim ≤ parsed + hd.size.len) (ha' : parsed + hd.size.len < 2^64) :
    loop limit handle s parsed e F p = .ok (s', r) := by
  obtain ⟨f, hf⟩ : ∃ f, e.fuel = f + 1 + 1 := ⟨e.fuel - 2, by omega⟩
  rw [loop, P.bind_ok (show getFuel e F p = .ok (e.fuel, p) from rfl), hf]
  rw [walk_one hl hlt hp hh (m := parsed + hd.size.len) (by rw [addU, if_pos ha'])]
  exact walk_end hl ha

/-- The entries after `j` times. -/
def ampAtoms (V j : Nat) : List AtomData :=
  if j = 0 then [] else [⟨.fourcc (cc '©' 'n' 'a' 'm'), List.replicate j (.reserved (List.replicate V 0))⟩]

theorem ampAtoms_step (V j : Nat) :
    mergeItem (ampAtoms V j) ⟨.fourcc (cc '©' 'n' 'a' 'm'), [.reserved (List.replicate V 0)]⟩ = ampAtoms V (j + 1) := by
  unfold ampAtoms
  rcases Nat.eq_zero_or_pos j with rfl | hj
  · rfl
  · rw [if_neg (by omega), if_neg (by omega), mergeItem, if_pos rfl]
    simp only [List.replicate_succ']

theorem ampItem_parse {V : Nat} (hV : V < 2^31) (hf : 2 ≤ e.fuel) (hm : F.length ≤ e.maxPos)
    (h : At F p (headBytes false (cc 'd' 'a' 't' 'a') (16 + V) ++ (be32 0 ++ (be32 0 ++ List.replicate V 0)))) :
    parseItem (cc '©' 'n' 'a' 'm') (15 + V) e F p =
      .ok (⟨.fourcc (cc '©' 'n' 'a' 'm'), [.reserved (List.replicate V 0)]⟩, p + (24 + V - 8)) := by
  obtain ⟨h1, h2⟩ := At_append.mp h
  obtain ⟨h3, h4⟩ := At_append.mp h2
  obtain ⟨h5, h6⟩ := At_append.mp h4
  rw [headBytes_length] at h3
  simp only [headBytes_length, be32_length, hlen, Bool.false_eq_true, if_false] at h3 h5 h6
  have hle := h6.le
  rw [List.length_replicate] at hle
  have hp := parseHead_raw (e := e) h1 (by simp; omega) (by simp; omega)
  have hh : itemHandle {} ⟨⟨false, 16 + V⟩, cc 'd' 'a' 't' 'a'⟩ e F (p + hlen false) =
      .ok ({ data := [.reserved (List.replicate V 0)] }, p + 8 + 4 + 4 + V) := by
    rw [show p + hlen false = p + 8 from rfl]
    unfold itemHandle
    rw [P.if_apply, if_pos (show cc 'd' 'a' 't' 'a' = DATA from rfl)]
    rw [P.bind_ok (parseFullHead_at (v := 0) (f := [0, 0, 0]) h3 rfl e)]
    dsimp only
    rw [P.if_apply, if_neg (by simp)]
    rw [P.bind_ok (show seekCur 4 e F (p + 8 + 4) = .ok ((), p + 8 + 4 + 4) from seekCur_ok (n := 4) (by omega))]
    rw [P.bind_ok (E.p_ok (contentLen_raw (ext := false) (n := 16 + V) (by simp [hlen]; omega)) F _)]
    have hs : subU (16 + V - hlen false) 8 e = .ok V := by
      simp only [hlen, Bool.false_eq_true, if_false]
      rw [subU, if_pos (by omega)]; congr 1; omega
    rw [P.bind_ok (E.p_ok hs F _)]
    have hb : beNat [0, 0, 0] = 0 := by decide
    rw [hb]
    have hd : Data.parse 0 V e F (p + 8 + 4 + 4) = .ok (.reserved (List.replicate V 0), p + 8 + 4 + 4 + V) := by
      show (Mp4.readU8Vec V >>= fun v => Pure.pure (Data.reserved v)) e F (p + 8 + 4 + 4) = _
      rw [P.bind_ok (readU8Vec_at h6 (List.length_replicate ..) (by omega) e)]
      rfl
    rw [P.bind_ok hd]
    rfl
  have hl := loop_one (limit := (Pure.pure (15 + V) : E Nat)) (lim := 15 + V) (parsed := 0) hf rfl (by omega) hp hh (by show _ ≤ 0 + (16 + V); omega)
    (by show 0 + (16 + V) < _; omega)
  rw [parseItem, P.bind_ok hl, P.if_apply, if_neg (by simp)]
  show Out.ok _ = Out.ok _
  congr 2
  omega

theorem amp_cycle {N V : Nat} (hc : e.checked = false) (hPV : N + V < 2^31) (hf : 2 ≤ e.fuel) (hm : F.length ≤ e.maxPos)
    (h : At F p (ampItem V)) (limit : E Nat) (hl : limit e = .ok (48 + N + V)) :
    ∀ m f j, m ≤ 8 + N → 2 * m + 3 ≤ f →
    walk limit (fun s h =>
      if h.fourcc = FREE then do skipContent h; Pure.pure s
      else do
        let n ← h.size.contentLen.p
        let a ← parseItem h.fourcc n
        Pure.pure (mergeItem s a)) f (ampAtoms V j) m e F p = .ok (ampAtoms V (j + m + 1), p) := by
  have hat := h
  unfold ampItem at hat
  have hle := hat.le
  obtain ⟨h1, h2⟩ := At_append.mp hat
  simp only [headBytes_length, hlen, Bool.false_eq_true, if_false] at h2
  have h2' : At F (p + 8) ((headBytes false (cc 'd' 'a' 't' 'a') (16 + V) ++ (be32 0 ++ (be32 0 ++ List.replicate V 0))) ++
      headBytes true (cc 'f' 'r' 'e' 'e') (2^64 - 24 - V)) := by simpa only [List.append_assoc] using h2
  obtain ⟨h3, h4⟩ := At_append.mp h2'
  have h4 : At F (p + 8 + (16 + V)) (headBytes true (cc 'f' 'r' 'e' 'e') (2^64 - 24 - V)) := by
    have : (headBytes false (cc 'd' 'a' 't' 'a') (16 + V) ++ (be32 0 ++ (be32 0 ++ List.replicate V 0))).length = 16 + V := by
      simp [headBytes_length, be32_length, hlen]; omega
    rw [this] at h4; exact h4
  have hp1 := parseHead_raw (e := e) h1 (by simp; omega) (by simp; omega)
  have hp2 := parseHead_raw (e := e) h4 (by simp; omega) (by simp)
  have hle4 := h4.le
  rw [headBytes_length] at hle4
  simp only [hlen, if_true] at hle4
  have hitem : ∀ j, (fun (s : List AtomData) (h : Head) =>
      if h.fourcc = FREE then (do skipContent h; Pure.pure s : Mp4.P (List AtomData))
      else do
        let n ← h.size.contentLen.p
        let a ← parseItem h.fourcc n
        Pure.pure (mergeItem s a)) (ampAtoms V j) ⟨⟨false, 23 + V⟩, cc '©' 'n' 'a' 'm'⟩ e F (p + hlen false) =
      .ok (ampAtoms V (j + 1), p + 8 + (16 + V)) := by
    intro j
    dsimp only
    rw [P.if_apply, if_neg (by decide)]
    rw [P.bind_ok (E.p_ok (contentLen_raw (ext := false) (n := 23 + V) (by simp [hlen]; omega)) F _)]
    have : 23 + V - hlen false = 15 + V := by simp [hlen]; omega
    rw [this, show p + hlen false = p + 8 from rfl]
    rw [P.bind_ok (ampItem_parse (by omega) hf hm h3), ampAtoms_step]
    show Out.ok _ = Out.ok _
    congr 2
    simp [hlen]; omega
  have hfree : ∀ j, (fun (s : List AtomData) (h : Head) =>
      if h.fourcc = FREE then (do skipContent h; Pure.pure s : Mp4.P (List AtomData))
      else do
        let n ← h.size.contentLen.p
        let a ← parseItem h.fourcc n
        Pure.pure (mergeItem s a)) (ampAtoms V j) ⟨⟨true, 2^64 - 24 - V⟩, cc 'f' 'r' 'e' 'e'⟩ e F (p + 8 + (16 + V) + hlen true) =
      .ok (ampAtoms V j, p) := by
    intro j
    dsimp only
    rw [P.if_apply, if_pos (show cc 'f' 'r' 'e' 'e' = FREE from rfl)]
    have hsk : skipContent ⟨⟨true, 2^64 - 24 - V⟩, cc 'f' 'r' 'e' 'e'⟩ e F (p + 8 + (16 + V) + hlen true) = .ok ((), p) := by
      rw [skipContent, P.bind_ok (E.p_ok (contentLen_raw (ext := true) (n := 2^64 - 24 - V) (by simp [hlen]; omega)) F _)]
      simp only [hlen, if_true]
      rw [seekCur]
      have ha : asI64 (2^64 - 24 - V - 16) = -(40 + V : Int) := by
        rw [asI64, if_neg (by omega)]; omega
      rw [ha, if_pos (by omega)]
      congr 2
      omega
    rw [P.bind_ok hsk]
    rfl
  intro m
  induction m with
  | zero =>
    intro f j _ hfu
    obtain ⟨f, rfl⟩ : ∃ g, f = g + 1 + 1 + 1 := ⟨f - 3, by omega⟩
    rw [walk_one hl (by omega) hp1 (hitem j) (m := 23 + V) (by
      show addU 0 (23 + V) e = _
      rw [addU, if_pos (by omega)]; simp)]
    rw [walk_one hl (by omega) hp2 (hfree (j + 1)) (m := 2^64 - 1) (by
      show addU (23 + V) (2^64 - 24 - V) e = _
      rw [addU, if_pos (by omega)]; congr 1; omega)]
    exact walk_end hl (by omega)
  | succ m ih =>
    intro f j hmP hfu
    obtain ⟨f, rfl⟩ : ∃ g, f = g + 1 + 1 := ⟨f - 2, by omega⟩
    rw [walk_one hl (by omega) hp1 (hitem j) (m := m + 1 + (23 + V)) (by
      show addU (m + 1) (23 + V) e = _
      rw [addU, if_pos (by omega)])]
    rw [walk_one hl (by omega) hp2 (hfree (j + 1)) (m := m) (by
      show addU (m + 1 + (23 + V)) (2^64 - 24 - V) e = _
      rw [addU, if_neg (by omega), if_neg (by simp [hc])]; congr 1; omega)]
    rw [ih f (j + 1) (by omega) (by omega)]
    congr 3
    omega

theorem amp_read {N V : Nat} (hc : e.checked = false) (hPV : N + V < 2^31) (hm : 92 + N + V ≤ e.maxPos)
    (hf : 2 * N + 20 ≤ e.fuel) :
    readTag e (ampFile N V) 0 = .ok { atoms := [⟨.fourcc (cc '©' 'n' 'a' 'm'), List.replicate (N + 9) (.reserved (List.replicate V 0))⟩] } := by
  have hlen' := ampFile_length N V
  have hat : At (ampFile N V) 0 (ampFile N V) := ⟨by omega, by simp⟩
  obtain ⟨F, hF⟩ : ∃ F, F = ampFile N V := ⟨_, rfl⟩
  have hat : At F 0 (ampFile N V) := by rw [hF]; exact hat
  rw [← hF] at hlen' ⊢
  clear hF
  unfold ampFile at hat
  obtain ⟨h1, hat⟩ := At_append.mp hat
  obtain ⟨h2, hat⟩ := At_append.mp hat
  obtain ⟨h3, hat⟩ := At_append.mp hat
  obtain ⟨h4, hat⟩ := At_append.mp hat
  obtain ⟨h5, hat⟩ := At_append.mp hat
  obtain ⟨h6, hat⟩ := At_append.mp hat
  obtain ⟨h7, hat⟩ := At_append.mp hat
  obtain ⟨-, h8⟩ := At_append.mp hat
  simp only [headBytes_length, be32_length, hlen, Bool.false_eq_true, if_false, List.length_replicate] at h2 h3 h4 h5 h6 h7 h8
  have hp1 := parseHead_raw (e := e) h1 (by simp) (by simp)
  have hp2 := parseHead_raw (e := e) h2 (by simp; omega) (by simp; omega)
  have hp3 := parseHead_raw (e := e) h3 (by simp; omega) (by simp; omega)
  have hp4 := parseHead_raw (e := e) h4 (by simp; omega) (by simp; omega)
  have hp6 := parseHead_raw (e := e) h6 (by simp; omega) (by simp; omega)
  have hp7 := parseHead_raw (e := e) h7 (by simp; omega) (by simp)
  simp only [hlen, Bool.false_eq_true, if_false] at hp1 hp2 hp3 hp4 hp6 hp7
  have hilst : parseIlst ⟨false, 56 + N + V⟩ e F (0 + 8 + 8 + 8 + 8 + 4 + 8) = .ok (ampAtoms V (N + 9), 0 + 8 + 8 + 8 + 8 + 4 + 8 + 8 + N) := by
    have hl : Size.contentLen ⟨false, 56 + N + V⟩ e = .ok (48 + N + V) := by
      rw [contentLen_raw (by simp [hlen]; omega)]; congr 1; simp [hlen]; omega
    obtain ⟨f, hfu⟩ : ∃ f, e.fuel = f + 1 := ⟨e.fuel - 1, by omega⟩
    rw [parseIlst, loop, P.bind_ok (show getFuel e F _ = .ok (e.fuel, _) from rfl), hfu]
    rw [walk_one hl (by omega) hp7 (s' := []) (r := 0 + 8 + 8 + 8 + 8 + 4 + 8 + 8 + N) (m := 8 + N) ?_ ?_]
    · have := amp_cycle hc hPV (by omega) (by omega) h8 _ hl (8 + N) f 0 (by omega) (by omega)
      rw [show ampAtoms V 0 = [] from rfl] at this
      rw [this]
      congr 3
      omega
    · dsimp only
      rw [P.if_apply, if_pos (show cc 'f' 'r' 'e' 'e' = FREE from rfl)]
      have hsk : skipContent ⟨⟨false, 8 + N⟩, cc 'f' 'r' 'e' 'e'⟩ e F (0 + 8 + 8 + 8 + 8 + 4 + 8 + 8) = .ok ((), 0 + 8 + 8 + 8 + 8 + 4 + 8 + 8 + N) := by
        rw [skipContent, P.bind_ok (E.p_ok (contentLen_raw (ext := false) (n := 8 + N) (by simp [hlen])) F _)]
        have : 8 + N - hlen false = N := by simp [hlen]
        rw [this, asI64_small (by omega), seekCur_ok (by omega)]
      rw [P.bind_ok hsk]
      rfl
    · rw [addU, if_pos (by show 0 + (8 + N) < _; omega)]; simp
  have hmeta : parseMeta ⟨false, 68 + N + V⟩ e F (0 + 8 + 8 + 8 + 8) = .ok (some (ampAtoms V (N + 9)), 0 + 8 + 8 + 8 + 8 + 4 + 8 + 8 + N) := by
    have hl : Size.contentLen ⟨false, 68 + N + V⟩ e = .ok (60 + N + V) := by
      rw [contentLen_raw (by simp [hlen]; omega)]; congr 1; simp [hlen]; omega
    rw [parseMeta, P.bind_ok (parseFullHead_at (v := 0) (f := [0, 0, 0]) h5 rfl e)]
    dsimp only
    rw [P.if_apply, if_neg (by simp)]
    refine loop_one (by omega) hl (by omega) hp6 ?_ (by show _ ≤ 4 + (56 + N + V); omega) (by show 4 + (56 + N + V) < _; omega)
    rw [P.if_apply, if_pos (show cc 'i' 'l' 's' 't' = ITEM_LIST from rfl), P.bind_ok hilst]
    rfl
  have hudta : parseUdta ⟨false, 76 + N + V⟩ e F (0 + 8 + 8 + 8) = .ok (some (some (ampAtoms V (N + 9))), 0 + 8 + 8 + 8 + 8 + 4 + 8 + 8 + N) := by
    have hl : Size.contentLen ⟨false, 76 + N + V⟩ e = .ok (68 + N + V) := by
      rw [contentLen_raw (by simp [hlen]; omega)]; congr 1; simp [hlen]; omega
    refine loop_one (by omega) hl (by omega) hp4 ?_ (by show _ ≤ 0 + (68 + N + V); omega) (by show 0 + (68 + N + V) < _; omega)
    rw [P.if_apply, if_pos (show cc 'm' 'e' 't' 'a' = METADATA from rfl), P.bind_ok hmeta]
    rfl
  have hmoov : parseMoov ⟨false, 84 + N + V⟩ e F (0 + 8 + 8) = .ok ({ udta := some (some (some (ampAtoms V (N + 9)))) }, 0 + 8 + 8 + 8 + 8 + 4 + 8 + 8 + N) := by
    have hl : Size.contentLen ⟨false, 84 + N + V⟩ e = .ok (76 + N + V) := by
      rw [contentLen_raw (by simp [hlen]; omega)]; congr 1; simp [hlen]; omega
    refine loop_one (by omega) hl (by omega) hp3 ?_ (by show _ ≤ 0 + (76 + N + V); omega) (by show 0 + (76 + N + V) < _; omega)
    unfold moovHandle
    rw [P.if_apply, if_neg (show cc 'u' 'd' 't' 'a' ≠ MOVIE_HEADER by decide), P.if_apply, if_neg (show cc 'u' 'd' 't' 'a' ≠ TRACK by decide), P.if_apply, if_pos (show cc 'u' 'd' 't' 'a' = USER_DATA from rfl), P.bind_ok hudta]
    rfl
  have hftyp : parseFtyp e F 0 = .ok ([], 0 + 8) := by
    rw [parseFtyp, P.bind_ok hp1, P.if_apply, if_neg (by decide)]
    rw [P.bind_ok (E.p_ok (contentLen_raw (ext := false) (n := 8) (by simp [hlen])) F _)]
    exact readUtf8_at (s := []) (n := 0) (At_nil (by omega)) rfl (by omega) e
  have hrem : remainingStreamLen e F (0 + 8) = .ok (84 + N + V, 0 + 8) := by
    rw [remainingStreamLen, P.bind_ok (show tellP e F (0 + 8) = .ok (0 + 8, 0 + 8) from rfl),
      P.bind_ok (show seekEnd e F (0 + 8) = .ok (F.length, F.length) from rfl)]
    have : subU F.length (0 + 8) e = .ok (84 + N + V) := by rw [subU, if_pos (by omega)]; congr 1; omega
    rw [P.bind_ok (E.p_ok this F _), P.bind_ok (show seekStart (0 + 8) e F F.length = .ok ((), 0 + 8) by rw [seekStart, if_pos (by omega)])]
    rfl
  obtain ⟨f, hfu⟩ : ∃ f, e.fuel = f + 1 := ⟨e.fuel - 1, by omega⟩
  have htop : topWalk (84 + N + V) e.fuel 0 e F (0 + 8) = .ok ({ udta := some (some (some (ampAtoms V (N + 9)))) }, 0 + 8 + 8 + 8 + 8 + 4 + 8 + 8 + N) := by
    rw [hfu, topWalk, P.if_apply, if_neg (by omega), P.bind_ok hp2, P.if_apply, if_pos (show cc 'm' 'o' 'o' 'v' = MOVIE from rfl)]
    exact hmoov
  have : readTagP e F 0 = .ok (mkTag [] { udta := some (some (some (ampAtoms V (N + 9)))) }, 0 + 8 + 8 + 8 + 8 + 4 + 8 + 8 + N) := by
    rw [readTagP, P.bind_ok hftyp, P.bind_ok hrem, P.bind_ok (show getFuel e F (0 + 8) = .ok (e.fuel, 0 + 8) from rfl), P.bind_ok htop]
    rfl
  rw [readTag, this]
  rfl

end
end Mp4
