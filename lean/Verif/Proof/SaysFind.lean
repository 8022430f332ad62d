import Verif.Proof.SaysAll
import Verif.Proof.SaysWrite
/-
Every error of the catalogue of the search occurs.
-/
namespace Mp4
open Spec

variable {e : Env} {k : ErrKind} {d : Str}

/-- There is a short rest of the file for which all of the functions fail. -/
def CanA {ι α} (e : Env) (m : ι → D α) (n : Nat) (k : ErrKind) (d : Str) : Prop :=
  ∃ G, G.length ≤ n ∧ ∀ i, FailsAt e (m i) G k d

theorem CanA.mono {ι α} {m : ι → D α} {n n' : Nat} (h : CanA e m n k d) (hn : n ≤ n') : CanA e m n' k d := by
  obtain ⟨G, h1, h2⟩ := h
  exact ⟨G, by omega, h2⟩

theorem Can.bounds {β} {f : AtomBounds → D β} {n : Nat} (h : CanA e f n k d) : Can e (quiet (findBounds big) >>= f) n k d := by
  obtain ⟨G, h1, h2⟩ := h
  exact ⟨G, h1, .bounds h2⟩

theorem CanA.full {ι β} {f : ι → UInt8 × Bytes → D β} {n : Nat} (v : UInt8) (h : CanA e (fun i => f i (v, [0, 0, 0])) n k d) :
    CanA e (fun i => parseFullHeadD >>= f i) (n + 4) k d := by
  obtain ⟨G, h1, h2⟩ := h
  exact ⟨[v, 0, 0, 0] ++ G, by rw [List.length_append]; simp; omega, fun i => .full (h2 i)⟩

theorem CanA.any {ι α} {m : D α} {n : Nat} (h : Can e m n k d) : CanA e (fun _ : ι => m) n k d := by
  obtain ⟨G, h1, h2⟩ := h
  exact ⟨G, h1, fun _ => h2⟩

theorem CanA.bind {ι α β} {m : ι → D α} {f : ι → α → D β} {n : Nat} (h : CanA e m n k d) : CanA e (fun i => m i >>= f i) n k d := by
  obtain ⟨G, h1, h2⟩ := h
  exact ⟨G, h1, fun i => .bind (h2 i)⟩

theorem CanA.head {ι σ} {handle : σ → Head → D σ} {s : ι → σ} {q n : Nat} (hr : Roomy e) (hq : q < 992)
    (h : Can e parseHeadD n k d) : CanA e (fun i => loopD big.contentLen handle (s i) q) n k d := by
  obtain ⟨G, h1, h2⟩ := h
  exact ⟨G, h1, fun i => .loopHead hr.fuel big_content hq h2⟩

/-- A loop in which the atom `c` is searched by `m`. -/
theorem CanA.child {ι σ α} {handle : σ → Head → D σ} {s : ι → σ} {q n : Nat} (hr : Roomy e) (hq : q < 992) (c : Fourcc)
    {m : D α} {f : ι → α → D σ} (hh : ∀ i, handle (s i) ⟨big, c⟩ = within c m >>= f i)
    (h : Can e m n k d) : CanA e (fun i => loopD big.contentLen handle (s i) q) (n + 8) k (parsingText c ++ d) := by
  obtain ⟨G, h1, h2⟩ := h
  refine ⟨_, by rw [child_length]; omega, fun i =>
    .loopChild (n := 1000) (c := c) (G := G) hr.fuel big_content hq (by omega) (by omega) ?_⟩
  have := hh i
  rw [show (⟨⟨false, 1000⟩, c⟩ : Head) = ⟨big, c⟩ from rfl, this]
  exact .bind (.within h2)

/-- An atom whose end is out of reach. -/
def huge : Size := ⟨true, 2^63 + 8⟩

theorem huge_skip (hr : Roomy e) {G : Bytes} (c : Fourcc) : FailsAt e (quiet (skipContent ⟨huge, c⟩)) G .io [] := by
  intro F p _ _ _ h8
  refine quiet_err ?_
  have hc : Size.contentLen huge e = .ok (2^63 - 8) := by rw [Size.contentLen, subU, if_pos (by decide)]; rfl
  have := hr.pos
  rw [skipContent, P.bind_ok (E.p_ok hc F p)]
  rw [asI64_small (by omega), seekCur, if_neg]
  intro h
  have := h.2
  omega

/-- The head of such an atom has been read. -/
def FailsBehind {α} (e : Env) (m : D α) (k : ErrKind) (d : Str) : Prop :=
  ∀ F p, p = F.length → F.length ≤ 4096 → 16 ≤ p → m e F p = .err k d

theorem huge_leaf (hr : Roomy e) : FailsBehind e (quiet (findLeaf huge)) .io [] := by
  intro F p _ h4 h8
  refine quiet_err ?_
  have hpos := hr.pos
  have h1 : subU p huge.headLen e = .ok (p - 16) := by
    rw [subU, show huge.headLen = 16 from rfl, if_pos (by omega)]
  have h2 : addU (p - 16) huge.len e = .ok (p - 16 + (2^63 + 8)) := by
    rw [addU, show huge.len = 2^63 + 8 from rfl, if_pos (by omega)]
  have h3 : subU (p - 16 + (2^63 + 8)) p e = .ok (2^63 - 8) := by
    rw [subU, if_pos (by omega), show p - 16 + (2^63 + 8) - p = 2^63 - 8 by omega]
  have hb : findBounds huge e F p = .ok (⟨p - 16, huge⟩, p) := by
    rw [findBounds, P.bind_ok (show tellP e F p = .ok (p, p) from rfl), P.bind_ok (E.p_ok h1 F p)]
    rfl
  rw [findLeaf, P.bind_ok hb]
  refine P.bind_err ?_
  rw [seekToEnd, P.bind_ok (show tellP e F p = .ok (p, p) from rfl), AtomBounds.end_, P.bind_ok (E.p_ok h2 F p),
    P.bind_ok (E.p_ok h3 F p)]
  rw [asI64_small (by omega), seekCur, if_neg]
  intro h
  have := h.2
  omega

theorem CanA.huge {ι σ} {handle : σ → Head → D σ} {s : ι → σ} {q : Nat} (hr : Roomy e) (hq : q < 992)
    (hh : ∀ i, handle (s i) ⟨Mp4.huge, FREE⟩ = do quiet (skipContent ⟨Mp4.huge, FREE⟩); pure (s i)) :
    CanA e (fun i => loopD big.contentLen handle (s i) q) 16 .io [] := by
  refine ⟨be32 1 ++ FREE.bytes ++ be64 (2^63 + 8) ++ [], by decide, fun i => .loop hr.fuel big_content hq ?_⟩
  refine .step (v := ⟨Mp4.huge, FREE⟩) (fun F p a _ _ => huge_ok a) ?_
  rw [hh i]
  exact .bind (.bind (huge_skip hr _))

theorem CanA.leaf {ι σ} {handle : σ → Head → D σ} {s : ι → σ} {q : Nat} (hr : Roomy e) (hq : q < 992) (c : Fourcc)
    {f : ι → AtomBounds → D σ} (hh : ∀ i, handle (s i) ⟨Mp4.huge, c⟩ = within c (quiet (findLeaf Mp4.huge)) >>= f i) :
    CanA e (fun i => loopD big.contentLen handle (s i) q) 16 .io (parsingText c ++ []) := by
  refine ⟨be32 1 ++ c.bytes ++ be64 (2^63 + 8) ++ [], ?_, fun i => .loop hr.fuel big_content hq ?_⟩
  · simp only [List.length_append, be32_length, fourcc_length]; decide
  intro F p h hl h4 h8
  have hd : parseHeadD e F p = .ok (⟨Mp4.huge, c⟩, p + 16) := huge_ok (At_of_drop h hl)
  rw [D.bind_ok hd, hh i]
  refine D.bind_err (D.bind_err (within_err (huge_leaf hr _ _ ?_ h4 (by omega))))
  simp only [List.length_append, be32_length, fourcc_length, List.length_nil] at hl
  have : (be64 (2^63 + 8)).length = 8 := rfl
  omega

/-! ### Levels -/

theorem can_fStbl {n : Nat} (hr : Roomy e) (h : Can e (findStblD big) n k d) :
    Can e (findMinfD big) (n + 8) k (parsingText SAMPLE_TABLE ++ d) :=
  .bounds (.child hr (by omega) SAMPLE_TABLE (fun _ => if_pos rfl) h)

theorem can_fMinf {n : Nat} (hr : Roomy e) (h : Can e (findMinfD big) n k d) :
    Can e (findMdiaD big) (n + 8) k (parsingText MEDIA_INFORMATION ++ d) :=
  .bounds (.child hr (by omega) MEDIA_INFORMATION (fun _ => if_pos rfl) h)

theorem can_fMdia {n : Nat} (hr : Roomy e) (h : Can e (findMdiaD big) n k d) :
    Can e (findTrakD big) (n + 8) k (parsingText MEDIA ++ d) :=
  .bounds (.child hr (by omega) MEDIA (fun _ => if_pos rfl) h)

theorem can_fTrak {n : Nat} (hr : Roomy e) (h : Can e (findTrakD big) n k d) :
    Can e (findMoovD big) (n + 8) k (parsingText TRACK ++ d) :=
  .bounds (.child hr (by omega) TRACK (fun _ => if_pos rfl) h)

theorem can_fUdta {n : Nat} (hr : Roomy e) (h : Can e (findUdtaD big) n k d) :
    Can e (findMoovD big) (n + 8) k (parsingText USER_DATA ++ d) :=
  .bounds (.child hr (by omega) USER_DATA (fun _ => (if_neg (by decide)).trans (if_pos rfl)) h)

theorem can_fMeta {n : Nat} (hr : Roomy e) (h : Can e (findMetaD big) n k d) :
    Can e (findUdtaD big) (n + 8) k (parsingText METADATA ++ d) :=
  .bounds (.child hr (by omega) METADATA (fun _ => if_pos rfl) h)

/-- The loop of the search over the top level atoms. -/
def topHandleD (s : TopBounds) (h : Head) : D TopBounds :=
  if h.fourcc = MOVIE then do
    let a ← within MOVIE (findMoovD h.size); pure { s with moov := some a }
  else if h.fourcc = MEDIA_DATA then do
    let a ← within MEDIA_DATA (quiet (findLeaf h.size)); pure { s with mdat := some a }
  else do quiet (skipContent h); pure s

theorem can_top (hr : Roomy e) {G : Bytes} (hG : G.length ≤ 2000) (h : FailsAt e (loopD (pure G.length) topHandleD {} 0) G k d) :
    ∃ F, findTopD e F 0 = .err k d := by
  refine ⟨be32 8 ++ FILETYPE.bytes ++ G, ?_⟩
  have hlen := child_length 8 FILETYPE G
  have a1 := At_of_drop (F := be32 8 ++ FILETYPE.bytes ++ G) (p := 0) rfl (Nat.zero_add _)
  have d1 := drop_of_drop (F := be32 8 ++ FILETYPE.bytes ++ G) (p := 0) rfl
  generalize be32 8 ++ FILETYPE.bytes ++ G = F at hlen a1 d1
  have d1 : F.drop 8 = G := d1
  have hpos := hr.pos
  have hftyp : parseFtypD e F 0 = .ok ([], 8) := ftyp_ok a1 (by omega)
  have hrem : remainingStreamLen e F 8 = .ok (G.length, 8) := by
    rw [rest_ok (by omega) (by omega), show F.length - 8 = G.length by omega]
  rw [findTopD, D.bind_ok hftyp, D.bind_ok (quiet_ok hrem)]
  exact D.bind_err (h F 8 d1 (by omega) (by omega) (by omega))

theorem can_fMoov {n : Nat} (hr : Roomy e) (h : Can e (findMoovD big) n k d) (hn : n ≤ 1000) :
    ∃ F, findTopD e F 0 = .err k (parsingText MOVIE ++ d) := by
  obtain ⟨G, h1, h2⟩ := h
  refine can_top hr (G := be32 1000 ++ MOVIE.bytes ++ G) (by rw [child_length]; omega)
    (.loopChild hr.fuel rfl (by rw [child_length]; omega) (by omega) (by omega) ?_)
  rw [topHandleD, if_pos rfl]
  exact .bind (.within h2)

theorem can_fMdat (hr : Roomy e) : ∃ F, findTopD e F 0 = .err .io (parsingText MEDIA_DATA ++ []) := by
  refine can_top hr (G := be32 1 ++ MEDIA_DATA.bytes ++ be64 (2^63 + 8) ++ []) (by decide)
    (.loop hr.fuel rfl (by decide) ?_)
  intro F p h hl h4 h8
  have hd : parseHeadD e F p = .ok (⟨Mp4.huge, MEDIA_DATA⟩, p + 16) := huge_ok (At_of_drop h hl)
  rw [D.bind_ok hd, topHandleD, if_neg (by decide), if_pos rfl]
  refine D.bind_err (D.bind_err (within_err (huge_leaf hr _ _ ?_ h4 (by omega))))
  have : (be32 1 ++ MEDIA_DATA.bytes ++ be64 (2^63 + 8) ++ []).length = 16 := by decide
  omega

theorem can_find {n : Nat} {path : List Fourcc} (hr : Roomy e) (hn : n ≤ 500)
    (h : path = moovPath ∧ Can e (findMoovD big) n k d ∨
      path = trakPath ∧ Can e (findTrakD big) n k d ∨ path = mdiaPath ∧ Can e (findMdiaD big) n k d ∨
      path = minfPath ∧ Can e (findMinfD big) n k d ∨ path = stblPath ∧ Can e (findStblD big) n k d ∨
      path = udtaPath ∧ Can e (findUdtaD big) n k d ∨ path = metaPath ∧ Can e (findMetaD big) n k d) :
    ∃ F, findTopD e F 0 = .err k (whileParsing path d) := by
  have text : ∀ f p, whileParsing (f :: p) d = parsingText f ++ whileParsing p d := fun f p => parsing_cons f p d
  have nil : whileParsing [] d = d := rfl
  rcases h with ⟨rfl, h⟩ | ⟨rfl, h⟩ | ⟨rfl, h⟩ | ⟨rfl, h⟩ | ⟨rfl, h⟩ | ⟨rfl, h⟩ | ⟨rfl, h⟩
  · have := can_fMoov hr h (by omega)
    rw [moovPath, text, nil]; exact this
  · have := can_fMoov hr (can_fTrak hr h) (by omega)
    show ∃ F, findTopD e F 0 = .err k (whileParsing [_, _] d)
    rw [text, text, nil]; exact this
  · have := can_fMoov hr (can_fTrak hr (can_fMdia hr h)) (by omega)
    show ∃ F, findTopD e F 0 = .err k (whileParsing [_, _, _] d)
    rw [text, text, text, nil]; exact this
  · have := can_fMoov hr (can_fTrak hr (can_fMdia hr (can_fMinf hr h))) (by omega)
    show ∃ F, findTopD e F 0 = .err k (whileParsing [_, _, _, _] d)
    rw [text, text, text, text, nil]; exact this
  · have := can_fMoov hr (can_fTrak hr (can_fMdia hr (can_fMinf hr (can_fStbl hr h)))) (by omega)
    show ∃ F, findTopD e F 0 = .err k (whileParsing [_, _, _, _, _] d)
    rw [text, text, text, text, text, nil]; exact this
  · have := can_fMoov hr (can_fUdta hr h) (by omega)
    show ∃ F, findTopD e F 0 = .err k (whileParsing [_, _] d)
    rw [text, text, nil]; exact this
  · have := can_fMoov hr (can_fUdta hr (can_fMeta hr h)) (by omega)
    show ∃ F, findTopD e F 0 = .err k (whileParsing [_, _, _] d)
    rw [text, text, text, nil]; exact this

theorem parsing_append (p q : List Fourcc) (t : Str) : whileParsing (p ++ q) t = whileParsing p (whileParsing q t) := by
  induction p with
  | nil => rfl
  | cons f p ih => rw [List.cons_append, parsing_cons, parsing_cons, ih]

theorem parsing_leaf (c : Fourcc) : whileParsing [c] [] = parsingText c ++ [] := parsing_cons c [] []

theorem find_ftyp (h : ∃ F, parseFtypD e F 0 = .err k d) : ∃ F, findTopD e F 0 = .err k d := by
  obtain ⟨F, h⟩ := h
  exact ⟨F, D.bind_err h⟩

/-- Every error of the catalogue occurs. -/
theorem find_occurs (hr : Roomy e) {path : List Fourcc} (h : FindFault path k d) :
    ∃ F, findTopD e F 0 = .err k (whileParsing path d) := by
  have hf := hr.fuel
  have hpos := hr.pos
  cases h with
  | noTag => exact find_ftyp (ftyp_can (.inl ⟨rfl, rfl⟩))
  | noMovie =>
    obtain ⟨F, a, hlen⟩ : ∃ F, At F 0 (be32 8 ++ FILETYPE.bytes) ∧ F.length = 8 :=
      ⟨be32 8 ++ FILETYPE.bytes, At_intro' [] [] (by simp) rfl, rfl⟩
    refine ⟨F, ?_⟩
    have hrem : remainingStreamLen e F 8 = .ok (0, 8) := by
      rw [rest_ok (by omega) (by omega), show F.length - 8 = 0 by omega]
    obtain ⟨f, hf'⟩ : ∃ f, e.fuel = f + 1 := ⟨e.fuel - 1, by omega⟩
    have hl : loopD (pure 0) topHandleD {} 0 e F 8 = .ok ({}, 8) := by
      rw [loopD, D.bind_ok (quiet_ok (show getFuel e F 8 = .ok (e.fuel, 8) from rfl)), hf']
      rfl
    rw [findTopD, D.bind_ok (ftyp_ok a (by omega)), D.bind_ok (quiet_ok hrem)]
    exact D.bind_ok hl
  | head hp h =>
    have hh := head_fails (e := e) h
    simp only [findHeadPaths, List.mem_cons, List.not_mem_nil, or_false] at hp
    rcases hp with rfl | hp
    · exact find_ftyp (ftyp_can (.inr (.inl h)))
    · refine can_find (n := 12) hr (by omega) ?_
      rcases hp with rfl | rfl | rfl | rfl | rfl | rfl | rfl
      · exact .inl ⟨rfl, .bounds ((CanA.head hr (by omega) hh).mono (by omega))⟩
      · exact .inr (.inl ⟨rfl, .bounds ((CanA.head hr (by omega) hh).mono (by omega))⟩)
      · exact .inr (.inr (.inl ⟨rfl, .bounds ((CanA.head hr (by omega) hh).mono (by omega))⟩))
      · exact .inr (.inr (.inr (.inl ⟨rfl, .bounds ((CanA.head hr (by omega) hh).mono (by omega))⟩)))
      · exact .inr (.inr (.inr (.inr (.inl ⟨rfl, .bounds ((CanA.head hr (by omega) hh).mono (by omega))⟩))))
      · exact .inr (.inr (.inr (.inr (.inr (.inl ⟨rfl, .bounds ((CanA.head hr (by omega) hh).mono (by omega))⟩)))))
      · exact .inr (.inr (.inr (.inr (.inr (.inr ⟨rfl, .bounds (CanA.full 0 (.head hr (by omega) hh))⟩)))))
  | full h =>
    exact can_find hr (by omega) (.inr (.inr (.inr (.inr (.inr (.inr ⟨rfl, .bounds (.bind (.any (full_fails h)))⟩))))))
  | io hp =>
    rcases hp with hp | hp
    · simp only [findHeadPaths, List.mem_cons, List.not_mem_nil, or_false] at hp
      rcases hp with rfl | hp
      · exact find_ftyp (ftyp_can (.inr (.inr (.inl ⟨rfl, rfl⟩))))
      · refine can_find (n := 20) hr (by omega) ?_
        rcases hp with rfl | rfl | rfl | rfl | rfl | rfl | rfl
        · exact .inl ⟨rfl, .bounds ((CanA.huge hr (by omega) fun _ => (if_neg (by decide)).trans (if_neg (by decide))).mono (by omega))⟩
        · exact .inr (.inl ⟨rfl, .bounds ((CanA.huge hr (by omega) fun _ => if_neg (by decide)).mono (by omega))⟩)
        · exact .inr (.inr (.inl ⟨rfl, .bounds ((CanA.huge hr (by omega) fun _ => if_neg (by decide)).mono (by omega))⟩))
        · exact .inr (.inr (.inr (.inl ⟨rfl, .bounds ((CanA.huge hr (by omega) fun _ => if_neg (by decide)).mono (by omega))⟩)))
        · exact .inr (.inr (.inr (.inr (.inl ⟨rfl, .bounds ((CanA.huge hr (by omega) fun _ =>
            (if_neg (by decide)).trans (if_neg (by decide))).mono (by omega))⟩))))
        · exact .inr (.inr (.inr (.inr (.inr (.inl ⟨rfl, .bounds ((CanA.huge hr (by omega) fun _ => if_neg (by decide)).mono (by omega))⟩)))))
        · exact .inr (.inr (.inr (.inr (.inr (.inr ⟨rfl, .bounds (CanA.full 0 (.huge hr (by omega) fun _ =>
            (if_neg (by decide)).trans (if_neg (by decide))))⟩)))))
    · simp only [findLeafPaths, List.mem_cons, List.not_mem_nil, or_false] at hp
      rcases hp with rfl | rfl | rfl | rfl | rfl
      · rw [stcoPath, parsing_append, parsing_leaf]
        exact can_find hr (by omega) (.inr (.inr (.inr (.inr (.inl ⟨rfl, .bounds (.leaf hr (by omega) SAMPLE_TABLE_CHUNK_OFFSET
          fun _ => if_pos rfl)⟩)))))
      · rw [co64Path, parsing_append, parsing_leaf]
        exact can_find hr (by omega) (.inr (.inr (.inr (.inr (.inl ⟨rfl, .bounds (.leaf hr (by omega) SAMPLE_TABLE_CHUNK_OFFSET_64
          fun _ => (if_neg (by decide)).trans (if_pos rfl))⟩)))))
      · rw [hdlrPath, parsing_append, parsing_leaf]
        exact can_find hr (by omega) (.inr (.inr (.inr (.inr (.inr (.inr ⟨rfl, .bounds (CanA.full 0 (.leaf hr (by omega) HANDLER_REFERENCE
          fun _ => if_pos rfl))⟩))))))
      · rw [ilstPath, parsing_append, parsing_leaf]
        exact can_find hr (by omega) (.inr (.inr (.inr (.inr (.inr (.inr ⟨rfl, .bounds (CanA.full 0 (.leaf hr (by omega) ITEM_LIST
          fun _ => (if_neg (by decide)).trans (if_pos rfl)))⟩))))))
      · rw [mdatPath, parsing_leaf]
        exact can_fMdat hr
  | metaVersion v h0 =>
    refine can_find (n := 4) hr (by omega) (.inr (.inr (.inr (.inr (.inr (.inr ⟨rfl, .bounds (CanA.full (n := 0) v
      ⟨[], by simp, fun i => ?_⟩)⟩))))))
    dsimp only
    rw [if_pos h0]
    exact .fail
  | utf8 => exact find_ftyp (ftyp_can (.inr (.inr (.inr ⟨rfl, rfl⟩))))

/-- The search fails whatever is to be written, however the later calls go. -/
theorem search_occurs (hr : Roomy e) {path : List Fourcc} (h : FindFault path k d) (fl : Faults) (atoms : List AtomData) :
    ∃ F, (writeTagD fl e F 0 atoms).1 = .err k (whileParsing path d) := by
  obtain ⟨F, hF⟩ := find_occurs hr h
  refine ⟨F, ?_⟩
  have : preparePhaseD atoms e F 0 = .err k (whileParsing path d) := D.bind_err hF
  rw [writeTagD, this]

end Mp4
