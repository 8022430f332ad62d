import Verif.Proof.Says
import Verif.Proof.ReadErr
/-
Every error of the catalogue of reading occurs.
-/
namespace Mp4
open Spec

variable {e : Env} {k : ErrKind} {d : Str}

/-- Started where the rest of the (short) file is `G`, the function fails. -/
def FailsAt {α} (e : Env) (m : D α) (G : Bytes) (k : ErrKind) (d : Str) : Prop :=
  ∀ F p, F.drop p = G → p + G.length = F.length → F.length ≤ 4096 → 8 ≤ p → m e F p = .err k d

/-- There is a short rest of the file for which the function fails. -/
def Can {α} (e : Env) (m : D α) (n : Nat) (k : ErrKind) (d : Str) : Prop := ∃ G, G.length ≤ n ∧ FailsAt e m G k d

theorem D.bind_ok {α β} {m : D α} {f : α → D β} {e F p a q} (h : m e F p = .ok (a, q)) : (m >>= f) e F p = f a e F q := by
  rw [D.bind_apply, h]

theorem D.bind_err {α β} {m : D α} {f : α → D β} {e F p k d} (h : m e F p = .err k d) : (m >>= f) e F p = .err k d := by
  rw [D.bind_apply, h]

theorem D.ok_of_forget {α} {m : D α} {e F p x} (h : D.forget m e F p = .ok x) : m e F p = .ok x := by
  unfold D.forget at h
  cases hm : m e F p with
  | ok y => rw [hm] at h; cases h; rfl
  | err k d => rw [hm] at h; cases h
  | panic => rw [hm] at h; cases h
  | fuel => rw [hm] at h; cases h

theorem say_ok {α} {d : Str} {m : P α} {e F p x} (h : m e F p = .ok x) : say d m e F p = .ok x := by
  unfold say; rw [h]; rfl

theorem say_err {α} {d : Str} {m : P α} {e F p k} (h : m e F p = .err k) : say d m e F p = .err k d := by
  unfold say; rw [h]; rfl

theorem quiet_ok {α} {m : P α} {e F p x} (h : m e F p = .ok x) : quiet m e F p = .ok x := say_ok h

theorem quiet_err {α} {m : P α} {e F p k} (h : m e F p = .err k) : quiet m e F p = .err k [] := say_err h

theorem within_err {α} {f : Fourcc} {m : D α} {e F p k d} (h : m e F p = .err k d) :
    within f m e F p = .err k (parsingText f ++ d) := by
  unfold within; rw [h]; rfl

theorem fourcc_length (f : Fourcc) : f.bytes.length = 4 := rfl

theorem At_of_drop {F : Bytes} {p : Nat} {a G : Bytes} (h : F.drop p = a ++ G) (hl : p + (a ++ G).length = F.length) : At F p a := by
  rw [List.length_append] at hl
  refine ⟨by omega, ?_⟩
  rw [h, List.take_left]

theorem drop_of_drop {F : Bytes} {p : Nat} {a G : Bytes} (h : F.drop p = a ++ G) : F.drop (p + a.length) = G := by
  rw [← List.drop_drop, h, List.drop_left]

theorem readExact_short {F : Bytes} {p n : Nat} {e : Env} (h0 : n ≠ 0) (h : F.length < p + n) : readExact n e F p = .err .io := by
  rw [readExact, if_neg (by omega)]

/-! ### Heads -/

theorem head_ok {F : Bytes} {p n : Nat} {f : Fourcc} (a : At F p (be32 n ++ f.bytes)) (h8 : 8 ≤ n) (h32 : n < 2^32) :
    parseHeadD e F p = .ok (⟨⟨false, n⟩, f⟩, p + 8) := by
  apply D.ok_of_forget
  rw [parseHeadD_forget, parseHead, P.bind_ok (readU32_at a.left h32 e),
    P.bind_ok (readExact_at' (a.right (be32_length n)) (fourcc_length f) e)]
  rw [fourcc_bytes, if_neg (by omega), if_neg (by omega)]
  rfl

theorem head_fails_any (h : HeadFault k d) : ∃ G : Bytes, G.length ≤ 8 ∧
    ∀ F p, F.drop p = G → p + G.length = F.length → parseHeadD e F p = .err k d := by
  cases h with
  | length =>
    refine ⟨[], by simp, fun F p h hl => D.bind_err (say_err ?_)⟩
    rw [readU32, P.bind_err (readExact_short (by omega) (by simp at hl; omega))]
  | ident =>
    refine ⟨be32 8, by rw [be32_length]; omega, fun F p h hl => ?_⟩
    have a : At F p (be32 8) := At_of_drop (G := []) (by simpa using h) (by simpa using hl)
    rw [be32_length] at hl
    exact (D.bind_ok (say_ok (readU32_at a (by omega) e))).trans
      (D.bind_err (say_err (readExact_short (by omega) (by omega))))
  | extLength =>
    refine ⟨be32 1 ++ (cc 'f' 'r' 'e' 'e').bytes, by simp [be32_length, fourcc_length], fun F p h hl => ?_⟩
    have a : At F p (be32 1 ++ (cc 'f' 'r' 'e' 'e').bytes) := At_of_drop (G := []) (by simpa using h) (by simpa using hl)
    rw [List.length_append, be32_length, fourcc_length] at hl
    rw [parseHeadD, D.bind_ok (say_ok (readU32_at a.left (by omega) e)),
      D.bind_ok (say_ok (readExact_at' (a.right (be32_length 1)) (fourcc_length _) e))]
    simp only [if_true]
    refine D.bind_err (say_err ?_)
    rw [readU64, P.bind_err (readExact_short (by omega) (by omega))]
  | short f n hn h1 =>
    refine ⟨be32 n ++ f.bytes, by simp [be32_length, fourcc_length], fun F p h hl => ?_⟩
    have a : At F p (be32 n ++ f.bytes) := At_of_drop (G := []) (by simpa using h) (by simpa using hl)
    rw [parseHeadD, D.bind_ok (say_ok (readU32_at a.left (by omega) e)),
      D.bind_ok (say_ok (readExact_at' (a.right (be32_length n)) (fourcc_length _) e))]
    rw [fourcc_bytes, if_neg h1, if_pos hn]
    rfl

theorem head_fails (h : HeadFault k d) : Can e parseHeadD 8 k d := by
  obtain ⟨G, h1, h2⟩ := head_fails_any (e := e) h
  exact ⟨G, h1, fun F p h3 h4 _ _ => h2 F p h3 h4⟩

theorem full_fails (h : FullFault k d) : Can e parseFullHeadD 1 k d := by
  cases h with
  | version =>
    refine ⟨[], by simp, fun F p h hl _ _ => D.bind_err (say_err ?_)⟩
    rw [readU8, P.bind_err (readExact_short (by omega) (by simp at hl; omega))]
  | flags =>
    refine ⟨[0], by simp, fun F p h hl _ _ => ?_⟩
    have a : At F p [0] := At_of_drop (G := []) (by simpa using h) (by simpa using hl)
    simp at hl
    exact (D.bind_ok (say_ok (readU8_at a e))).trans (D.bind_err (say_err (readExact_short (by omega) (by omega))))

theorem full_ok {F : Bytes} {p : Nat} {v : UInt8} {f : Bytes} (a : At F p (v :: f)) (hf : f.length = 3) :
    parseFullHeadD e F p = .ok ((v, f), p + 4) := by
  apply D.ok_of_forget
  rw [parseFullHeadD_forget]
  exact parseFullHead_at a hf e

/-! ### Steps -/

/-- The bytes of `a` are passed, then the rest fails. -/
theorem FailsAt.step {α β} {m : D α} {f : α → D β} {a G : Bytes} {v : α}
    (h1 : ∀ F p, At F p a → F.length ≤ 4096 → 8 ≤ p → m e F p = .ok (v, p + a.length))
    (h2 : FailsAt e (f v) G k d) : FailsAt e (m >>= f) (a ++ G) k d := by
  intro F p h hl h4 hp
  rw [D.bind_ok (h1 F p (At_of_drop h hl) h4 hp)]
  rw [List.length_append] at hl
  exact h2 F _ (drop_of_drop h) (by omega) h4 (by omega)

/-- Nothing is read, then the rest fails. -/
theorem FailsAt.stay {α β} {m : D α} {f : α → D β} {G : Bytes} {Q : α → Prop}
    (h1 : ∀ F p, F.length ≤ 4096 → 8 ≤ p → p ≤ F.length → ∃ v, m e F p = .ok (v, p) ∧ Q v)
    (h2 : ∀ v, Q v → FailsAt e (f v) G k d) : FailsAt e (m >>= f) G k d := by
  intro F p h hl h4 hp
  obtain ⟨v, hv, hq⟩ := h1 F p h4 hp (by omega)
  rw [D.bind_ok hv]
  exact h2 v hq F p h hl h4 hp

theorem FailsAt.bind {α β} {m : D α} {f : α → D β} {G : Bytes} (h : FailsAt e m G k d) : FailsAt e (m >>= f) G k d :=
  fun F p h1 h2 h3 h4 => D.bind_err (h F p h1 h2 h3 h4)

theorem FailsAt.within {α} {m : D α} {f : Fourcc} {G : Bytes} (h : FailsAt e m G k d) :
    FailsAt e (within f m) G k (parsingText f ++ d) := fun F p h1 h2 h3 h4 => within_err (h F p h1 h2 h3 h4)

theorem FailsAt.fail {α} {G : Bytes} : FailsAt e (failD k d : D α) G k d := fun _ _ _ _ _ _ => rfl

theorem FailsAt.head {β} {f : Head → D β} {n : Nat} {c : Fourcc} {G : Bytes} (h8 : 8 ≤ n) (h32 : n < 2^32)
    (h : FailsAt e (f ⟨⟨false, n⟩, c⟩) G k d) : FailsAt e (parseHeadD >>= f) (be32 n ++ c.bytes ++ G) k d :=
  .step (fun F p a _ _ => by rw [head_ok a h8 h32, List.length_append, be32_length, fourcc_length]) h

theorem FailsAt.full {β} {f : UInt8 × Bytes → D β} {v : UInt8} {a b c : UInt8} {G : Bytes}
    (h : FailsAt e (f (v, [a, b, c])) G k d) : FailsAt e (parseFullHeadD >>= f) ([v, a, b, c] ++ G) k d :=
  .step (fun F p h _ _ => full_ok h rfl) h

theorem FailsAt.arith {α β} {m : E α} {f : α → D β} {v : α} {G : Bytes} (hm : m e = .ok v) (h : FailsAt e (f v) G k d) :
    FailsAt e (quiet m.p >>= f) G k d :=
  .stay (Q := fun x => x = v) (fun F p _ _ _ => ⟨v, quiet_ok (E.p_ok hm F p), rfl⟩) fun _ hx => hx ▸ h

theorem FailsAt.seek {β} {f : Unit → D β} {a G : Bytes} {n : Nat} (hn : a.length = n) (hm : 8192 ≤ e.maxPos) (h4 : n ≤ 4096)
    (h : FailsAt e (f ()) G k d) : FailsAt e (quiet (seekCur n) >>= f) (a ++ G) k d :=
  .step (fun F p h hF _ => by have := h.le; rw [quiet_ok (seekCur_ok (by omega)), hn]) h

/-- An atom of 1000 bytes. -/
def big : Size := ⟨false, 1000⟩

theorem big_content : big.contentLen e = .ok 992 := rfl

theorem FailsAt.loop {σ} {limit : E Nat} {handle : σ → Head → D σ} {s : σ} {parsed lim : Nat} {G : Bytes}
    (hf : 0 < e.fuel) (hl : limit e = .ok lim) (hp : parsed < lim)
    (h : FailsAt e (do
      let head ← parseHeadD
      let s' ← handle s head
      let parsed' ← quiet (addU parsed head.size.len).p
      walkD limit handle (e.fuel - 1) s' parsed') G k d) : FailsAt e (loopD limit handle s parsed) G k d := by
  refine .stay (Q := fun x => x = e.fuel) (fun F p _ _ _ => ⟨e.fuel, rfl, rfl⟩) fun v hv => ?_
  subst hv
  obtain ⟨f, hf'⟩ : ∃ f, e.fuel = f + 1 := ⟨e.fuel - 1, by omega⟩
  rw [hf', Nat.add_sub_cancel] at h
  rw [hf']
  refine .arith hl ?_
  rw [if_pos hp]
  exact h

theorem FailsAt.loopHead {σ} {limit : E Nat} {handle : σ → Head → D σ} {s : σ} {parsed lim : Nat} {G : Bytes}
    (hf : 0 < e.fuel) (hl : limit e = .ok lim) (hp : parsed < lim) (h : FailsAt e parseHeadD G k d) :
    FailsAt e (loopD limit handle s parsed) G k d := .loop hf hl hp (.bind h)

theorem FailsAt.loopChild {σ} {limit : E Nat} {handle : σ → Head → D σ} {s : σ} {parsed lim n : Nat} {c : Fourcc} {G : Bytes}
    (hf : 0 < e.fuel) (hl : limit e = .ok lim) (hp : parsed < lim) (h8 : 8 ≤ n) (h32 : n < 2^32)
    (h : FailsAt e (handle s ⟨⟨false, n⟩, c⟩) G k d) :
    FailsAt e (loopD limit handle s parsed) (be32 n ++ c.bytes ++ G) k d := .loop hf hl hp (.head h8 h32 (.bind h))

/-! ### Levels -/

/-- A machine on which the short files of this file can be read. -/
structure Roomy (e : Env) : Prop where
  fuel : 0 < e.fuel
  pos : e.maxPos = 2^63 - 1

theorem Can.mono {α} {m : D α} {n n' : Nat} (h : Can e m n k d) (hn : n ≤ n') : Can e m n' k d := by
  obtain ⟨G, h1, h2⟩ := h
  exact ⟨G, by omega, h2⟩

theorem child_length (n : Nat) (f : Fourcc) (G : Bytes) : (be32 n ++ f.bytes ++ G).length = 8 + G.length := by
  simp only [List.length_append, be32_length, fourcc_length]

/-- A loop in which the atom `c` is handled by `r`. -/
theorem Can.child {σ} {limit : E Nat} {handle : σ → Head → D σ} {s : σ} {parsed lim n : Nat} (c : Fourcc)
    (hr : Roomy e) (hl : limit e = .ok lim) (hp : parsed < lim)
    (h : Can e (handle s ⟨big, c⟩) n k d) : Can e (loopD limit handle s parsed) (n + 8) k d := by
  obtain ⟨G, h1, h2⟩ := h
  exact ⟨_, by rw [child_length]; omega, .loopChild (n := 1000) (c := c) (G := G) hr.fuel hl hp (by omega) (by omega) h2⟩

theorem Can.loopHead {σ} {limit : E Nat} {handle : σ → Head → D σ} {s : σ} {parsed lim n : Nat}
    (hr : Roomy e) (hl : limit e = .ok lim) (hp : parsed < lim) (h : Can e parseHeadD n k d) :
    Can e (loopD limit handle s parsed) n k d := by
  obtain ⟨G, h1, h2⟩ := h
  exact ⟨G, h1, .loopHead hr.fuel hl hp h2⟩

theorem Can.wrap {α β} {c : Fourcc} {m : D α} {f : α → D β} {n : Nat} (h : Can e m n k d) :
    Can e (within c m >>= f) n k (parsingText c ++ d) := by
  obtain ⟨G, h1, h2⟩ := h
  exact ⟨G, h1, .bind (.within h2)⟩

theorem Can.bind {α β} {m : D α} {f : α → D β} {n : Nat} (h : Can e m n k d) : Can e (m >>= f) n k d := by
  obtain ⟨G, h1, h2⟩ := h
  exact ⟨G, h1, .bind h2⟩

theorem Can.fail {α} : Can e (failD k d : D α) 0 k d := ⟨[], by simp, .fail⟩

theorem Can.full {β} {f : UInt8 × Bytes → D β} {n : Nat} (v a b c : UInt8) (h : Can e (f (v, [a, b, c])) n k d) :
    Can e (parseFullHeadD >>= f) (n + 4) k d := by
  obtain ⟨G, h1, h2⟩ := h
  exact ⟨[v, a, b, c] ++ G, by rw [List.length_append]; simp; omega, .full h2⟩

theorem Can.seek {β} {f : Unit → D β} {n : Nat} (m : Nat) (hr : Roomy e) (hm : m ≤ 4096) (h : Can e (f ()) n k d) :
    Can e (quiet (seekCur m) >>= f) (n + m) k d := by
  obtain ⟨G, h1, h2⟩ := h
  have := hr.pos
  exact ⟨List.replicate m 0 ++ G, by rw [List.length_append, List.length_replicate]; omega,
    .seek (List.length_replicate ..) (by omega) hm h2⟩

theorem Can.arith {α β} {m : E α} {f : α → D β} {v : α} {n : Nat} (hm : m e = .ok v) (h : Can e (f v) n k d) :
    Can e (quiet m.p >>= f) n k d := by
  obtain ⟨G, h1, h2⟩ := h
  exact ⟨G, h1, .arith hm h2⟩

/-- `find_bounds`; the rest of the file does not depend on the position. -/
theorem FailsAt.bounds {β} {f : AtomBounds → D β} {G : Bytes} (h : ∀ b, FailsAt e (f b) G k d) :
    FailsAt e (quiet (findBounds big) >>= f) G k d := by
  refine .stay (Q := fun _ => True) (fun F p _ hp _ => ⟨⟨p - 8, big⟩, quiet_ok ?_, trivial⟩) fun v _ => h v
  have : subU p big.headLen e = .ok (p - 8) := by
    have : big.headLen = 8 := rfl
    rw [subU, this, if_pos (by omega)]
  rw [findBounds, P.bind_ok (show tellP e F p = .ok (p, p) from rfl), P.bind_ok (E.p_ok this F p)]
  rfl

theorem can_mvhd {n : Nat} (hr : Roomy e) (h : Can e (parseMvhdD big) n k d) :
    Can e (parseMoovD big) (n + 8) k (parsingText MOVIE_HEADER ++ d) :=
  .child MOVIE_HEADER hr big_content (by omega) (by
    rw [moovHandleD, if_pos rfl]
    exact .wrap h)

theorem can_trak {n : Nat} (hr : Roomy e) (h : Can e (parseTrakD big) n k d) :
    Can e (parseMoovD big) (n + 8) k (parsingText TRACK ++ d) :=
  .child TRACK hr big_content (by omega) (by
    rw [moovHandleD, if_neg (by decide), if_pos rfl]
    exact .wrap h)

theorem can_udta {n : Nat} (hr : Roomy e) (h : Can e (parseUdtaD big) n k d) :
    Can e (parseMoovD big) (n + 8) k (parsingText USER_DATA ++ d) :=
  .child USER_DATA hr big_content (by omega) (by
    rw [moovHandleD, if_neg (by decide), if_neg (by decide), if_pos rfl]
    exact .wrap h)

theorem can_mdia {n : Nat} (hr : Roomy e) (h : Can e (parseMdiaD big) n k d) :
    Can e (parseTrakD big) (n + 8) k (parsingText MEDIA ++ d) :=
  .child MEDIA hr big_content (by omega) (by rw [if_pos rfl]; exact .wrap h)

theorem can_minf {n : Nat} (hr : Roomy e) (h : Can e (parseMinfD big) n k d) :
    Can e (parseMdiaD big) (n + 8) k (parsingText MEDIA_INFORMATION ++ d) :=
  .child MEDIA_INFORMATION hr big_content (by omega) (by rw [if_pos rfl]; exact .wrap h)

theorem can_stbl {n : Nat} (hr : Roomy e) (h : Can e (parseStblD big) n k d) :
    Can e (parseMinfD big) (n + 8) k (parsingText SAMPLE_TABLE ++ d) :=
  .child SAMPLE_TABLE hr big_content (by omega) (by rw [if_pos rfl]; exact .wrap h)

theorem can_stsd {n : Nat} (hr : Roomy e) (h : Can e (parseStsdD big) n k d) :
    Can e (parseStblD big) (n + 8) k (parsingText SAMPLE_TABLE_SAMPLE_DESCRIPTION ++ d) :=
  .child SAMPLE_TABLE_SAMPLE_DESCRIPTION hr big_content (by omega) (by rw [if_pos rfl]; exact .wrap h)

theorem can_meta {n : Nat} (hr : Roomy e) (h : Can e (parseMetaD big) n k d) :
    Can e (parseUdtaD big) (n + 8) k (parsingText METADATA ++ d) :=
  .child METADATA hr big_content (by omega) (by rw [if_pos rfl]; exact .wrap h)

theorem can_ilst {n : Nat} (hr : Roomy e) (h : Can e (parseIlstD big) n k d) :
    Can e (parseMetaD big) (n + 12) k (parsingText ITEM_LIST ++ d) := by
  refine .full 0 0 0 0 ?_
  exact .child ITEM_LIST hr big_content (by omega) (by rw [if_pos rfl]; exact .wrap h)

theorem can_mp4a {n : Nat} (hr : Roomy e) (h : Can e (parseMp4aD big) n k d) :
    Can e (parseStsdD big) (n + 16) k (parsingText MP4_AUDIO ++ d) := by
  refine .full 0 0 0 0 ?_
  exact .seek 4 hr (by omega) (.child MP4_AUDIO hr big_content (by omega) (by rw [if_pos rfl]; exact .wrap h))

theorem ftyp_ok {F : Bytes} (a : At F 0 (be32 8 ++ FILETYPE.bytes)) (hl : 8 ≤ F.length) : parseFtypD e F 0 = .ok ([], 8) := by
  rw [parseFtypD, D.bind_ok (head_ok a (by omega) (by omega)), if_neg (by simp),
    D.bind_ok (quiet_ok (E.p_ok (m := Size.contentLen ⟨false, 8⟩) (a := 0) rfl F (0 + 8)))]
  rw [readUtf8D, D.bind_ok (quiet_ok (show readU8Vec 0 e F (0 + 8) = .ok ([], 8) from ?_))]
  · rfl
  · rw [readU8Vec, P.bind_ok (E.p_ok (m := allocU8 0) (a := ()) rfl F (0 + 8)), readExact, if_pos (.inl rfl)]
    rfl

theorem rest_ok {F : Bytes} {p : Nat} (hl : p ≤ F.length) (hm : p ≤ e.maxPos) :
    remainingStreamLen e F p = .ok (F.length - p, p) := by
  have hs : subU F.length p e = .ok (F.length - p) := by rw [subU, if_pos hl]
  rw [remainingStreamLen, P.bind_ok (show tellP e F p = .ok (p, p) from rfl),
    P.bind_ok (show seekEnd e F p = .ok (F.length, F.length) from rfl), P.bind_ok (E.p_ok hs F _),
    P.bind_ok (show seekStart p e F F.length = .ok ((), p) by rw [seekStart, if_pos hm])]
  rfl

theorem can_moov {n : Nat} (hr : Roomy e) (h : Can e (parseMoovD big) n k d) (hn : n ≤ 1000) :
    ∃ F, readTagD e F 0 = .err k (parsingText MOVIE ++ d) := by
  obtain ⟨G, h1, h2⟩ := h
  refine ⟨be32 8 ++ FILETYPE.bytes ++ (be32 1000 ++ MOVIE.bytes ++ G), ?_⟩
  have hlen := (child_length 8 FILETYPE (be32 1000 ++ MOVIE.bytes ++ G)).trans
    (congrArg (8 + ·) (child_length 1000 MOVIE G))
  have a1 := At_of_drop (F := be32 8 ++ FILETYPE.bytes ++ (be32 1000 ++ MOVIE.bytes ++ G)) (p := 0) rfl (Nat.zero_add _)
  have d1 := drop_of_drop (F := be32 8 ++ FILETYPE.bytes ++ (be32 1000 ++ MOVIE.bytes ++ G)) (p := 0) rfl
  generalize be32 8 ++ FILETYPE.bytes ++ (be32 1000 ++ MOVIE.bytes ++ G) = F at hlen a1 d1
  have d1 : F.drop 8 = be32 1000 ++ MOVIE.bytes ++ G := d1
  have a2 := At_of_drop (F := F) (p := 8) d1 (by rw [child_length]; omega)
  have d2 : F.drop 16 = G := drop_of_drop d1
  have hf := hr.fuel
  have hpos := hr.pos
  have hftyp : parseFtypD e F 0 = .ok ([], 8) := ftyp_ok a1 (by omega)
  have hrem : remainingStreamLen e F 8 = .ok (F.length - 8, 8) := rest_ok (by omega) (by omega)
  rw [readTagD, D.bind_ok hftyp, D.bind_ok (quiet_ok hrem), D.bind_ok (quiet_ok (show getFuel e F 8 = .ok (e.fuel, 8) from rfl))]
  refine D.bind_err ?_
  obtain ⟨f, hf'⟩ : ∃ f, e.fuel = f + 1 := ⟨e.fuel - 1, by omega⟩
  rw [hf', topWalkD, if_neg (by omega), D.bind_ok (head_ok a2 (by omega) (by omega)), if_pos rfl]
  exact within_err (h2 F 16 d2 (by omega) (by omega) (by omega))

/-! ### Faults -/

theorem huge_ok {F : Bytes} {p : Nat} {f : Fourcc} (a : At F p (be32 1 ++ f.bytes ++ be64 (2^63 + 8))) :
    parseHeadD e F p = .ok (⟨⟨true, 2^63 + 8⟩, f⟩, p + 16) := by
  apply D.ok_of_forget
  rw [parseHeadD_forget, parseHead, P.bind_ok (readU32_at a.left.left (by omega) e),
    P.bind_ok (readExact_at' (a.left.right (be32_length 1)) (fourcc_length f) e)]
  rw [fourcc_bytes, if_pos rfl, P.bind_ok (readU64_at (a.right (n := 8) rfl) (by omega) e)]
  rfl

/-- A child whose end is out of reach. -/
theorem can_huge {σ} {limit : E Nat} {handle : σ → Head → D σ} {s : σ} {parsed lim : Nat} (hr : Roomy e)
    (hl : limit e = .ok lim) (hp : parsed < lim)
    (hh : handle s ⟨⟨true, 2^63 + 8⟩, FREE⟩ = do quiet (skipContent ⟨⟨true, 2^63 + 8⟩, FREE⟩); pure s) :
    Can e (loopD limit handle s parsed) 16 .io [] := by
  refine ⟨be32 1 ++ FREE.bytes ++ be64 (2^63 + 8) ++ [], by decide, .loop hr.fuel hl hp ?_⟩
  refine .step (v := ⟨⟨true, 2^63 + 8⟩, FREE⟩) (fun F p a _ _ => huge_ok a) ?_
  rw [hh]
  refine .bind (.bind fun F p _ _ _ h8 => quiet_err ?_)
  have hc : Size.contentLen ⟨true, 2^63 + 8⟩ e = .ok (2^63 - 8) := by rw [Size.contentLen, subU, if_pos (by decide)]; rfl
  have := hr.pos
  rw [skipContent, P.bind_ok (E.p_ok hc F p)]
  rw [asI64_small (by omega), seekCur, if_neg]
  intro h
  have := h.2
  omega

theorem can_noEsds (hr : Roomy e) : Can e (parseMp4aD big) 36 (.atomNotFound ELEMENTARY_STREAM_DESCRIPTION) "Missing esds atom".toList := by
  have := hr.pos
  exact ⟨List.replicate 28 0 ++ (be32 8 ++ FREE.bytes ++ []), by decide,
    .bounds fun b => .seek (n := 28) (List.length_replicate ..) (by omega) (by omega)
      (.head (by omega) (by omega) (by rw [if_pos (by decide)]; exact .fail))⟩

theorem can_mp4aHead {n : Nat} (hr : Roomy e) (h : Can e parseHeadD n k d) : Can e (parseMp4aD big) (n + 28) k d := by
  obtain ⟨G, h1, h2⟩ := h
  have := hr.pos
  exact ⟨List.replicate 28 0 ++ G, by rw [List.length_append, List.length_replicate]; omega,
    .bounds fun b => .seek (n := 28) (List.length_replicate ..) (by omega) (by omega) (.bind h2)⟩

theorem can_esds {n : Nat} (hr : Roomy e) (h : Can e (parseEsdsD {} big) n k d) : Can e (parseMp4aD big) (n + 36) k d := by
  obtain ⟨G, h1, h2⟩ := h
  have := hr.pos
  exact ⟨List.replicate 28 0 ++ (be32 1000 ++ ELEMENTARY_STREAM_DESCRIPTION.bytes ++ G),
    by rw [List.length_append, List.length_replicate, child_length]; omega,
    .bounds fun b => .seek (n := 28) (List.length_replicate ..) (by omega) (by omega)
      (.head (by omega) (by omega) (by rw [if_neg (by simp)]; exact .bind h2))⟩

theorem can_noDesc : Can e (parseEsdsD {} big) 6 (.descriptorNotFound 3) "Missing elementary stream descriptor".toList := by
  refine .full (n := 2) 0 0 0 0 ?_
  dsimp only
  rw [if_neg (by simp)]
  refine ⟨[0, 0] ++ [], by simp, ?_⟩
  refine .step (v := (0, 2, 0)) (fun F p a _ _ => quiet_ok ?_) (by rw [if_pos (by decide)]; exact .fail)
  have a1 : At F p [0] := a.left (a := [0]) (b := [0])
  have a2 : At F (p + 1) [0] := a.right (a := [0]) (b := [0]) rfl
  rw [parseDescHead, P.bind_ok (readU8_at a1 e), descHeadLoop, P.bind_ok (m := readU8 >>= _) (a := (2, 0)) (p' := p + 2)]
  · rfl
  · rw [P.bind_ok (readU8_at a2 e)]
    rfl

theorem can_descIo : Can e (parseEsdsD {} big) 4 .io [] := by
  refine .full (n := 0) 0 0 0 0 ?_
  dsimp only
  rw [if_neg (by simp)]
  refine ⟨[], by simp, .bind fun F p _ hl _ _ => quiet_err ?_⟩
  rw [parseDescHead, P.bind_err]
  rw [readU8, P.bind_err (readExact_short (by omega) (by simp at hl; omega))]

theorem can_mvhdFull {n : Nat} (h : Can e parseFullHeadD n k d) : Can e (parseMvhdD big) n k d := by
  obtain ⟨G, h1, h2⟩ := h
  exact ⟨G, h1, .bounds fun b => .bind h2⟩

theorem can_mvhdVersion (v : UInt8) (h0 : v ≠ 0) (h1 : v ≠ 1) : Can e (parseMvhdD big) 4 (.unknownVersion v)
    ("Error unknown movie header (mvhd) version ".toList ++ decimal v.toNat) := by
  refine ⟨[v, 0, 0, 0] ++ [], by simp, .bounds fun b => .full ?_⟩
  dsimp only
  rw [if_neg h0, if_neg h1]
  exact .fail

theorem can_mvhdIo (hr : Roomy e) : Can e (parseMvhdD big) 4 .io [] := by
  have := hr.pos
  refine ⟨[0, 0, 0, 0] ++ [], by simp, .bounds fun b => .full ?_⟩
  dsimp only
  rw [if_pos rfl]
  intro F p _ hl _ _
  simp at hl
  refine quiet_err ?_
  rw [P.bind_ok (show seekCur 8 e F p = .ok ((), p + 8) from seekCur_ok (n := 8) (by omega)), P.bind_err]
  rw [readU32, P.bind_err (readExact_short (by omega) (by omega))]

/-- An item with one child. -/
theorem can_item {n : Nat} (hr : Roomy e) (c : Fourcc) {m : Nat} (h8 : 8 ≤ m) (h32 : m < 2^32)
    (h : Can e (itemHandleD {} ⟨⟨false, m⟩, c⟩) n k d) : Can e (parseIlstD big) (n + 16) k d := by
  obtain ⟨G, h1, h2⟩ := h
  refine .child (n := n + 8) (cc '©' 'n' 'a' 'm') hr big_content (by omega) ?_
  rw [if_neg (by decide)]
  exact .arith big_content (.bind (.bind ⟨_, by rw [child_length]; omega,
    .loopChild (lim := 992) (n := m) (c := c) (G := G) hr.fuel rfl (by omega) h8 h32 h2⟩))

theorem can_itemHead {n : Nat} (hr : Roomy e) (h : Can e parseHeadD n k d) : Can e (parseIlstD big) n k d :=
  .loopHead hr big_content (by omega) h

theorem can_itemFull {n : Nat} (hr : Roomy e) (h : Can e parseFullHeadD n k d) : Can e (parseIlstD big) (n + 16) k d :=
  can_item hr DATA (m := 1000) (by omega) (by omega) (by rw [itemHandleD, if_pos rfl]; exact .bind h)

theorem can_itemVersion (hr : Roomy e) (v : UInt8) (h0 : v ≠ 0) :
    Can e (parseIlstD big) 20 (.unknownVersion v) "Error reading data atom (data)".toList :=
  can_item hr (n := 4) DATA (m := 1000) (by omega) (by omega) (by
    rw [itemHandleD, if_pos rfl]
    refine .full v 0 0 0 ?_
    dsimp only
    rw [if_pos h0]
    exact .fail)

/-- A value of type `t` in `m` bytes. -/
theorem can_value {n : Nat} (hr : Roomy e) (t m : Nat) (ht : t < 2^24) (hm : m ≤ 1000) (h : Can e (Data.parseD t m) n k d) :
    Can e (parseIlstD big) (n + 24) k d :=
  can_item hr (n := n + 8) DATA (m := m + 16) (by omega) (by omega) (by
    rw [itemHandleD, if_pos rfl]
    refine .full (n := n + 4) 0 (UInt8.ofNat (t / 2^16)) (UInt8.ofNat (t / 2^8)) (UInt8.ofNat t) ?_
    dsimp only
    rw [if_neg (by simp)]
    have hc : Size.contentLen ⟨false, m + 16⟩ e = .ok (m + 8) := by
      rw [Size.contentLen, subU, if_pos (by simp)]; rfl
    have hs : subU (m + 8) 8 e = .ok m := by rw [subU, if_pos (by omega)]; rfl
    refine .seek 4 hr (by omega) (.arith hc (.arith hs (.bind ?_)))
    have : beNat [UInt8.ofNat (t / 2^16), UInt8.ofNat (t / 2^8), UInt8.ofNat t] = t := by
      have h := beNat_be32 t (by omega)
      have h0 : be32 t = [UInt8.ofNat (t / 2^24), UInt8.ofNat (t / 2^16), UInt8.ofNat (t / 2^8), UInt8.ofNat t] := rfl
      rw [h0, beNat_cons, Nat.div_eq_of_lt ht] at h
      simpa using h
    rw [this]
    exact h)

theorem can_utf8 (hr : Roomy e) : Can e (parseIlstD big) 25 .utf8StringDecoding "Data is not valid utf-8.".toList := by
  refine can_value hr 1 1 (by omega) (by omega) ⟨[255] ++ [], by simp, .bind (.step (v := [255]) (fun F p a _ _ => quiet_ok ?_) .fail)⟩
  rw [readU8Vec, P.bind_ok (E.p_ok (m := allocU8 1) (a := ()) rfl F p)]
  exact readExact_at' a rfl e

theorem can_utf16 (hr : Roomy e) : Can e (parseIlstD big) 26 .utf16StringDecoding "Data is not valid utf-16.".toList := by
  refine can_value hr 2 2 (by omega) (by omega) ⟨[216, 0] ++ [], by simp, .bind (.arith (v := ()) rfl
    (.step (v := [216, 0]) (fun F p a _ _ => quiet_ok (readExact_at' a rfl e)) ?_))⟩
  have : utf16Dec (units16 [216, 0]) = none := by decide +kernel
  rw [this]
  exact .fail

theorem can_dataType (hr : Roomy e) (t : Nat) (ht : t < 2^24) (hk : t ∉ knownTypes) :
    Can e (parseIlstD big) 24 (.unknownDataType t) "Unknown datatype code".toList := by
  refine can_value (n := 0) hr t 0 ht (by omega) ?_
  simp only [knownTypes, List.mem_cons, List.not_mem_nil, or_false, not_or] at hk
  unfold Data.parseD
  split <;> first | omega | exact .fail

theorem can_noData (hr : Roomy e) (f : Fourcc) (hf : f ≠ FREE) :
    Can e (parseIlstD big) 8 (.atomNotFound DATA) (noDataText f) := by
  refine ⟨be32 8 ++ f.bytes ++ [], by rw [child_length]; simp, .loopChild hr.fuel big_content (by omega) (by omega) (by omega) ?_⟩
  rw [if_neg hf]
  refine .arith (v := 0) rfl (.bind (.stay (Q := fun x => x = {}) (fun F p _ _ _ => ⟨{}, ?_, rfl⟩) fun v hv => ?_))
  · obtain ⟨g, hg⟩ : ∃ g, e.fuel = g + 1 := ⟨e.fuel - 1, by have := hr.fuel; omega⟩
    rw [loopD, D.bind_ok (quiet_ok (show getFuel e F p = .ok (e.fuel, p) from rfl)), hg, walkD,
      D.bind_ok (quiet_ok (E.p_ok (m := (pure 0 : E Nat)) (a := 0) rfl F p)), if_neg (by omega)]
    rfl
  · subst hv
    exact .fail

/-! ### Places -/

/-- The function reading the atom at a place. -/
theorem can_read {n : Nat} {path : List Fourcc} (hr : Roomy e) (hn : n ≤ 500)
    (h : path = moovPath ∧ Can e (parseMoovD big) n k d ∨ path = mvhdPath ∧ Can e (parseMvhdD big) n k d ∨
      path = trakPath ∧ Can e (parseTrakD big) n k d ∨ path = mdiaPath ∧ Can e (parseMdiaD big) n k d ∨
      path = minfPath ∧ Can e (parseMinfD big) n k d ∨ path = stblPath ∧ Can e (parseStblD big) n k d ∨
      path = stsdPath ∧ Can e (parseStsdD big) n k d ∨ path = mp4aPath ∧ Can e (parseMp4aD big) n k d ∨
      path = udtaPath ∧ Can e (parseUdtaD big) n k d ∨ path = metaPath ∧ Can e (parseMetaD big) n k d ∨
      path = ilstPath ∧ Can e (parseIlstD big) n k d) :
    ∃ F, readTagD e F 0 = .err k (whileParsing path d) := by
  have text : ∀ f p, whileParsing (f :: p) d = parsingText f ++ whileParsing p d := fun f p => parsing_cons f p d
  have nil : whileParsing [] d = d := rfl
  rcases h with ⟨rfl, h⟩ | ⟨rfl, h⟩ | ⟨rfl, h⟩ | ⟨rfl, h⟩ | ⟨rfl, h⟩ | ⟨rfl, h⟩ | ⟨rfl, h⟩ | ⟨rfl, h⟩ | ⟨rfl, h⟩ |
    ⟨rfl, h⟩ | ⟨rfl, h⟩
  · have := can_moov hr h (by omega)
    rw [moovPath, text, nil]; exact this
  · have := can_moov hr (can_mvhd hr h) (by omega)
    show ∃ F, readTagD e F 0 = .err k (whileParsing [_, _] d)
    rw [text, text, nil]; exact this
  · have := can_moov hr (can_trak hr h) (by omega)
    show ∃ F, readTagD e F 0 = .err k (whileParsing [_, _] d)
    rw [text, text, nil]; exact this
  · have := can_moov hr (can_trak hr (can_mdia hr h)) (by omega)
    show ∃ F, readTagD e F 0 = .err k (whileParsing [_, _, _] d)
    rw [text, text, text, nil]; exact this
  · have := can_moov hr (can_trak hr (can_mdia hr (can_minf hr h))) (by omega)
    show ∃ F, readTagD e F 0 = .err k (whileParsing [_, _, _, _] d)
    rw [text, text, text, text, nil]; exact this
  · have := can_moov hr (can_trak hr (can_mdia hr (can_minf hr (can_stbl hr h)))) (by omega)
    show ∃ F, readTagD e F 0 = .err k (whileParsing [_, _, _, _, _] d)
    rw [text, text, text, text, text, nil]; exact this
  · have := can_moov hr (can_trak hr (can_mdia hr (can_minf hr (can_stbl hr (can_stsd hr h))))) (by omega)
    show ∃ F, readTagD e F 0 = .err k (whileParsing [_, _, _, _, _, _] d)
    rw [text, text, text, text, text, text, nil]; exact this
  · have := can_moov hr (can_trak hr (can_mdia hr (can_minf hr (can_stbl hr (can_stsd hr (can_mp4a hr h)))))) (by omega)
    show ∃ F, readTagD e F 0 = .err k (whileParsing [_, _, _, _, _, _, _] d)
    rw [text, text, text, text, text, text, text, nil]; exact this
  · have := can_moov hr (can_udta hr h) (by omega)
    show ∃ F, readTagD e F 0 = .err k (whileParsing [_, _] d)
    rw [text, text, nil]; exact this
  · have := can_moov hr (can_udta hr (can_meta hr h)) (by omega)
    show ∃ F, readTagD e F 0 = .err k (whileParsing [_, _, _] d)
    rw [text, text, text, nil]; exact this
  · have := can_moov hr (can_udta hr (can_meta hr (can_ilst hr h))) (by omega)
    show ∃ F, readTagD e F 0 = .err k (whileParsing [_, _, _, _] d)
    rw [text, text, text, text, nil]; exact this

/-- The same file, given by where the head of the first child would be. -/
theorem can_head {n : Nat} {path : List Fourcc} (hr : Roomy e) (hp : path ∈ readHeadPaths) (h0 : path ≠ []) (hn : n ≤ 400)
    (h : Can e parseHeadD n k d) : ∃ F, readTagD e F 0 = .err k (whileParsing path d) := by
  have hloop : ∀ {σ} (handle : σ → Head → D σ) (s : σ) (q : Nat), q < 992 → Can e (loopD big.contentLen handle s q) (n + 28) k d :=
    fun handle s q hq => (Can.loopHead hr big_content hq h).mono (by omega)
  refine can_read (n := n + 28) hr (by omega) ?_
  simp only [readHeadPaths, List.mem_cons, List.not_mem_nil, or_false] at hp
  rcases hp with rfl | rfl | rfl | rfl | rfl | rfl | rfl | rfl | rfl | rfl | rfl
  · exact absurd rfl h0
  · exact .inl ⟨rfl, hloop _ _ _ (by omega)⟩
  · exact .inr (.inr (.inl ⟨rfl, hloop _ _ _ (by omega)⟩))
  · exact .inr (.inr (.inr (.inl ⟨rfl, hloop _ _ _ (by omega)⟩)))
  · exact .inr (.inr (.inr (.inr (.inl ⟨rfl, hloop _ _ _ (by omega)⟩))))
  · exact .inr (.inr (.inr (.inr (.inr (.inl ⟨rfl, hloop _ _ _ (by omega)⟩)))))
  · exact .inr (.inr (.inr (.inr (.inr (.inr (.inl ⟨rfl, (Can.full 0 0 0 0
      (.seek 4 hr (by omega) (Can.loopHead hr big_content (by omega) h))).mono (by omega)⟩))))))
  · exact .inr (.inr (.inr (.inr (.inr (.inr (.inr (.inl ⟨rfl, can_mp4aHead hr h⟩)))))))
  · exact .inr (.inr (.inr (.inr (.inr (.inr (.inr (.inr (.inl ⟨rfl, hloop _ _ _ (by omega)⟩))))))))
  · exact .inr (.inr (.inr (.inr (.inr (.inr (.inr (.inr (.inr (.inl ⟨rfl, (Can.full 0 0 0 0
      (Can.loopHead hr big_content (by omega) h)).mono (by omega)⟩)))))))))
  · exact .inr (.inr (.inr (.inr (.inr (.inr (.inr (.inr (.inr (.inr ⟨rfl, hloop _ _ _ (by omega)⟩)))))))))

theorem read_ftyp (h : ∃ F, parseFtypD e F 0 = .err k d) : ∃ F, readTagD e F 0 = .err k d := by
  obtain ⟨F, h⟩ := h
  exact ⟨F, D.bind_err h⟩

/-- The errors of the file type atom. -/
theorem ftyp_can (h : k = .noTag ∧ d = "No filetype atom found.".toList ∨ HeadFault k d ∨ k = .io ∧ d = [] ∨
    k = .utf8StringDecoding ∧ d = "Data is not valid utf-8.".toList) : ∃ F, parseFtypD e F 0 = .err k d := by
  rcases h with ⟨rfl, rfl⟩ | h | ⟨rfl, rfl⟩ | ⟨rfl, rfl⟩
  · refine ⟨be32 8 ++ FREE.bytes, ?_⟩
    have a : At (be32 8 ++ FREE.bytes) 0 (be32 8 ++ FREE.bytes) := At_intro' [] [] (by simp) rfl
    rw [parseFtypD, D.bind_ok (head_ok a (by omega) (by omega)), if_pos (by decide)]
    rfl
  · obtain ⟨G, -, hG⟩ := head_fails_any (e := e) h
    exact ⟨G, D.bind_err (hG G 0 rfl (Nat.zero_add _))⟩
  · obtain ⟨F, a, hlen⟩ : ∃ F, At F 0 (be32 9 ++ FILETYPE.bytes) ∧ F.length = 8 :=
      ⟨be32 9 ++ FILETYPE.bytes, At_intro' [] [] (by simp) rfl, rfl⟩
    refine ⟨F, ?_⟩
    rw [parseFtypD, D.bind_ok (head_ok a (by omega) (by omega)), if_neg (by simp),
      D.bind_ok (quiet_ok (E.p_ok (m := Size.contentLen ⟨false, 9⟩) (a := 1) rfl F (0 + 8)))]
    refine D.bind_err (quiet_err ?_)
    rw [readU8Vec, P.bind_ok (E.p_ok (m := allocU8 1) (a := ()) rfl F (0 + 8))]
    exact readExact_short (by omega) (by omega)
  · refine ⟨be32 9 ++ FILETYPE.bytes ++ [255], ?_⟩
    have a : At (be32 9 ++ FILETYPE.bytes ++ [255]) 0 (be32 9 ++ FILETYPE.bytes) := At_intro' [] [255] (by simp) rfl
    have a2 : At (be32 9 ++ FILETYPE.bytes ++ [255]) 8 [255] := At_intro' (be32 9 ++ FILETYPE.bytes) [] (by simp) rfl
    generalize be32 9 ++ FILETYPE.bytes ++ [255] = F at a a2
    rw [parseFtypD, D.bind_ok (head_ok a (by omega) (by omega)), if_neg (by simp),
      D.bind_ok (quiet_ok (E.p_ok (m := Size.contentLen ⟨false, 9⟩) (a := 1) rfl F (0 + 8))), readUtf8D,
      D.bind_ok (quiet_ok (show readU8Vec 1 e F (0 + 8) = .ok ([255], 9) from ?_))]
    · rfl
    · rw [readU8Vec, P.bind_ok (E.p_ok (m := allocU8 1) (a := ()) rfl F (0 + 8))]
      exact readExact_at' a2 rfl e

/-- Every error of the catalogue occurs. -/
theorem fault_occurs (hr : Roomy e) {path : List Fourcc} (h : ReadFault path k d) :
    ∃ F, readTagD e F 0 = .err k (whileParsing path d) := by
  have hf := hr.fuel
  have hpos := hr.pos
  cases h with
  | noTag => exact read_ftyp (ftyp_can (.inl ⟨rfl, rfl⟩))
  | noMovie =>
    obtain ⟨F, a, hlen⟩ : ∃ F, At F 0 (be32 8 ++ FILETYPE.bytes) ∧ F.length = 8 :=
      ⟨be32 8 ++ FILETYPE.bytes, At_intro' [] [] (by simp) rfl, rfl⟩
    refine ⟨F, ?_⟩
    rw [readTagD, D.bind_ok (ftyp_ok a (by omega)), D.bind_ok (quiet_ok (rest_ok (p := 8) (by omega) (by omega))),
      D.bind_ok (quiet_ok (show getFuel e F 8 = .ok (e.fuel, 8) from rfl))]
    refine D.bind_err ?_
    obtain ⟨f, hf'⟩ : ∃ f, e.fuel = f + 1 := ⟨e.fuel - 1, by omega⟩
    rw [hf', topWalkD, if_pos (by omega)]
    rfl
  | head hp h =>
    by_cases h0 : path = []
    · subst h0
      exact read_ftyp (ftyp_can (.inr (.inl h)))
    · exact can_head hr hp h0 (by omega) (head_fails h)
  | full hp h =>
    have h := full_fails (e := e) h
    refine can_read (n := 37) hr (by omega) ?_
    simp only [readFullPaths, List.mem_cons, List.not_mem_nil, or_false] at hp
    rcases hp with rfl | rfl | rfl | rfl | rfl
    · exact .inr (.inl ⟨rfl, (can_mvhdFull h).mono (by omega)⟩)
    · exact .inr (.inr (.inr (.inr (.inr (.inr (.inl ⟨rfl, h.bind.mono (by omega)⟩))))))
    · exact .inr (.inr (.inr (.inr (.inr (.inr (.inr (.inl ⟨rfl, (can_esds hr h.bind).mono (by omega)⟩)))))))
    · exact .inr (.inr (.inr (.inr (.inr (.inr (.inr (.inr (.inr (.inl ⟨rfl, h.bind.mono (by omega)⟩)))))))))
    · exact .inr (.inr (.inr (.inr (.inr (.inr (.inr (.inr (.inr (.inr ⟨rfl, (can_itemFull hr h).mono (by omega)⟩)))))))))
  | io hp =>
    rcases hp with rfl | hp
    · exact can_read hr (by omega) (.inr (.inl ⟨rfl, can_mvhdIo hr⟩))
    · simp only [readHeadPaths, List.mem_cons, List.not_mem_nil, or_false] at hp
      by_cases h0 : path = []
      · subst h0
        exact read_ftyp (ftyp_can (.inr (.inr (.inl ⟨rfl, rfl⟩))))
      · refine can_read (n := 40) hr (by omega) ?_
        rcases hp with rfl | rfl | rfl | rfl | rfl | rfl | rfl | rfl | rfl | rfl | rfl
        · exact absurd rfl h0
        · exact .inl ⟨rfl, (can_huge hr big_content (by omega) (by
            rw [moovHandleD, if_neg (by decide), if_neg (by decide), if_neg (by decide)])).mono (by omega)⟩
        · exact .inr (.inr (.inl ⟨rfl, (can_huge hr big_content (by omega) (if_neg (by decide))).mono (by omega)⟩))
        · exact .inr (.inr (.inr (.inl ⟨rfl, (can_huge hr big_content (by omega) (if_neg (by decide))).mono (by omega)⟩)))
        · exact .inr (.inr (.inr (.inr (.inl ⟨rfl, (can_huge hr big_content (by omega) (if_neg (by decide))).mono (by omega)⟩))))
        · exact .inr (.inr (.inr (.inr (.inr (.inl ⟨rfl, (can_huge hr big_content (by omega) (if_neg (by decide))).mono
            (by omega)⟩)))))
        · exact .inr (.inr (.inr (.inr (.inr (.inr (.inl ⟨rfl, (Can.full 0 0 0 0 (.seek 4 hr (by omega)
            (can_huge hr big_content (by omega) (if_neg (by decide))))).mono (by omega)⟩))))))
        · exact .inr (.inr (.inr (.inr (.inr (.inr (.inr (.inl ⟨rfl, can_esds hr can_descIo⟩)))))))
        · exact .inr (.inr (.inr (.inr (.inr (.inr (.inr (.inr (.inl ⟨rfl, (can_huge hr big_content (by omega)
            (if_neg (by decide))).mono (by omega)⟩))))))))
        · exact .inr (.inr (.inr (.inr (.inr (.inr (.inr (.inr (.inr (.inl ⟨rfl, (Can.full 0 0 0 0
            (can_huge hr big_content (by omega) (if_neg (by decide)))).mono (by omega)⟩)))))))))
        · exact .inr (.inr (.inr (.inr (.inr (.inr (.inr (.inr (.inr (.inr ⟨rfl, (can_huge hr big_content (by omega)
            (if_pos rfl)).mono (by omega)⟩)))))))))
  | mvhd v h0 h1 => exact can_read hr (by omega) (.inr (.inl ⟨rfl, can_mvhdVersion v h0 h1⟩))
  | stsd v h0 =>
    refine can_read (n := 0 + 4) hr (by omega) (.inr (.inr (.inr (.inr (.inr (.inr (.inl ⟨rfl, .full v 0 0 0 ?_⟩)))))))
    dsimp only
    rw [if_pos h0]
    exact .fail
  | esds v h0 =>
    refine can_read (n := 0 + 4 + 36) hr (by omega) (.inr (.inr (.inr (.inr (.inr (.inr (.inr (.inl ⟨rfl, can_esds hr (.full v 0 0 0 ?_)⟩))))))))
    dsimp only
    rw [if_pos h0]
    exact .fail
  | noEsds => exact can_read hr (by omega) (.inr (.inr (.inr (.inr (.inr (.inr (.inr (.inl ⟨rfl, can_noEsds hr⟩))))))))
  | noDesc => exact can_read hr (by omega) (.inr (.inr (.inr (.inr (.inr (.inr (.inr (.inl ⟨rfl, can_esds hr can_noDesc⟩))))))))
  | metaVersion v h0 =>
    refine can_read (n := 0 + 4) hr (by omega) (.inr (.inr (.inr (.inr (.inr (.inr (.inr (.inr (.inr (.inl ⟨rfl, .full v 0 0 0 ?_⟩))))))))))
    dsimp only
    rw [if_pos h0]
    exact .fail
  | item v h0 =>
    exact can_read hr (by omega) (.inr (.inr (.inr (.inr (.inr (.inr (.inr (.inr (.inr (.inr ⟨rfl, can_itemVersion hr v h0⟩))))))))))
  | dataType n hn hk =>
    exact can_read hr (by omega) (.inr (.inr (.inr (.inr (.inr (.inr (.inr (.inr (.inr (.inr ⟨rfl, can_dataType hr n hn hk⟩))))))))))
  | noData f hf =>
    exact can_read hr (by omega) (.inr (.inr (.inr (.inr (.inr (.inr (.inr (.inr (.inr (.inr ⟨rfl, can_noData hr f hf⟩))))))))))
  | utf8 hp =>
    rcases hp with rfl | rfl
    · exact read_ftyp (ftyp_can (.inr (.inr (.inr ⟨rfl, rfl⟩))))
    · exact can_read hr (by omega) (.inr (.inr (.inr (.inr (.inr (.inr (.inr (.inr (.inr (.inr ⟨rfl, can_utf8 hr⟩))))))))))
  | utf16 => exact can_read hr (by omega) (.inr (.inr (.inr (.inr (.inr (.inr (.inr (.inr (.inr (.inr ⟨rfl, can_utf16 hr⟩))))))))))

end Mp4
