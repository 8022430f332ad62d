import Verif.Proof.CallsRead
/-
A family of files on which reading takes many calls.
-/
namespace Mp4
open Spec

section
variable {e : Env} {F : Bytes} {α β : Type} {p q k : Nat}

/-- From `p`, with a prompt reader, `m` gives `a` and ends at `q` after at least `k` calls. -/
def Go (e : Env) (F : Bytes) (p k : Nat) (m : R α) (a : α) (q : Nat) : Prop :=
  ∀ t : RSt, t.pos = p → ∃ t', m promptly e F t = (.ok a, t') ∧ t'.pos = q ∧ t.tick + k ≤ t'.tick

theorem Go.bind {m : R α} {f : α → R β} {a : α} {b : β} {r k1 k2 : Nat} (h1 : Go e F p k1 m a q) (h2 : Go e F q k2 (f a) b r)
    (hk : k ≤ k1 + k2) : Go e F p k (m >>= f) b r := by
  intro t ht
  obtain ⟨t1, e1, p1, k1⟩ := h1 t ht
  obtain ⟨t2, e2, p2, k2⟩ := h2 t1 p1
  refine ⟨t2, ?_, p2, by omega⟩
  show R.bind m f promptly e F t = _
  unfold R.bind
  rw [e1]
  exact e2

theorem Go.pure {a : α} : Go e F p 0 (pure a) a p := fun t ht => ⟨t, rfl, ht, Nat.le_refl _⟩

theorem Go.E {m : E α} {a : α} (h : m e = .ok a) : Go e F p 0 m.r a p := fun t ht => ⟨t, by show (m e, t) = _; rw [h], ht, Nat.le_refl _⟩

theorem Go.alloc : Go e F p 0 (allocR 0) () p := fun t ht => ⟨{ t with mem := 0 :: t.mem }, rfl, ht, Nat.le_refl _⟩

theorem Go.getFuel : Go e F p 0 getFuelR e.fuel p := fun t ht => ⟨t, rfl, ht, Nat.le_refl _⟩

theorem Go.seekCur {x : Int} {r : Nat} (h : (p : Int) + x = r) (hr : r ≤ e.maxPos) : Go e F p 1 (seekCurR x) () r := by
  rintro t rfl
  refine ⟨{ t with pos := r, tick := t.tick + 1 }, ?_, rfl, Nat.le_refl _⟩
  unfold seekCurR
  show R.bind (seekR (t.pos + x)) _ promptly e F t = _
  unfold R.bind seekR promptly
  dsimp only
  rw [h, if_pos ⟨by omega, by omega⟩]
  rfl

theorem Go.seekStart {r : Nat} (hr : r ≤ e.maxPos) : Go e F p 1 (seekStartR r) () r := by
  rintro t rfl
  refine ⟨{ t with pos := r, tick := t.tick + 1 }, ?_, rfl, Nat.le_refl _⟩
  unfold seekStartR
  show R.bind (seekR r) _ promptly e F t = _
  unfold R.bind seekR promptly
  dsimp only
  rw [if_pos ⟨by omega, by omega⟩]
  rfl

theorem Go.tell : Go e F p 1 tellR p p := by
  rintro t rfl
  exact ⟨{ t with pos := t.pos, tick := t.tick + 1 }, rfl, rfl, Nat.le_refl _⟩

theorem Go.seekEnd : Go e F p 1 seekEndR F.length F.length := by
  rintro t rfl
  exact ⟨{ t with pos := F.length, tick := t.tick + 1 }, rfl, rfl, Nat.le_refl _⟩

theorem Go.read {bs rest : Bytes} {n : Nat} (hd : F.drop p = bs ++ rest) (hn : bs.length = n) (h0 : 0 < n) (h64 : n < 2^64)
    (hf : 2 ≤ e.fuel) : Go e F p 1 (readExactR n) bs (p + n) := by
  rintro t rfl
  refine ⟨{ t with pos := t.pos + n, tick := t.tick + 1 }, ?_, rfl, Nat.le_refl _⟩
  obtain ⟨f, hf'⟩ : ∃ f, e.fuel = f + 2 := ⟨e.fuel - 2, by omega⟩
  unfold readExactR
  rw [hf', readExactLoop]
  show (if n = 0 then _ else if ((F.drop t.pos).take (min (2^64 + 1) n)).isEmpty then _ else
    readExactLoop (f + 1) (n - ((F.drop t.pos).take (min (2^64 + 1) n)).length) ([] ++ (F.drop t.pos).take (min (2^64 + 1) n)) promptly e F
      { t with pos := t.pos + ((F.drop t.pos).take (min (2^64 + 1) n)).length, tick := t.tick + 1 }) = _
  have hb : (F.drop t.pos).take (min (2^64 + 1) n) = bs := by
    rw [hd, show min (2^64 + 1) n = bs.length by omega, List.take_left]
  rw [hb, if_neg (by omega)]
  have hne : ¬ bs.isEmpty := by
    cases bs with
    | nil => simp at hn; omega
    | cons => simp
  rw [if_neg hne, hn, Nat.sub_self, List.nil_append]
  rfl

theorem Go.readNone (hf : 2 ≤ e.fuel) : Go e F p 0 (readExactR 0) [] p := by
  rintro t rfl
  obtain ⟨f, hf'⟩ : ∃ f, e.fuel = f + 1 := ⟨e.fuel - 1, by omega⟩
  refine ⟨t, ?_, rfl, Nat.le_refl _⟩
  unfold readExactR
  rw [hf']
  rfl

theorem drop_next {bs rest : Bytes} {n : Nat} (hd : F.drop p = bs ++ rest) (hn : bs.length = n) : F.drop (p + n) = rest := by
  rw [← List.drop_drop, hd, ← hn, List.drop_left]

theorem Go.readU8 {v : UInt8} {rest : Bytes} (hd : F.drop p = v :: rest) (hf : 2 ≤ e.fuel) : Go e F p 1 readU8R v (p + 1) :=
  .bind (.read (bs := [v]) hd rfl (by omega) (by omega) hf) .pure (Nat.le_refl _)

theorem Go.readU32 {n : Nat} {rest : Bytes} (hd : F.drop p = be32 n ++ rest) (hn : n < 2^32) (hf : 2 ≤ e.fuel) :
    Go e F p 1 readU32R n (p + 4) := by
  have h := beNat_be32 n hn
  refine .bind (.read hd (be32_length _) (by omega) (by omega) hf) (b := n) (k2 := 0) ?_ (Nat.le_refl _)
  rw [h]
  exact .pure

theorem Go.parseHead {n : Nat} {fc : Fourcc} {rest : Bytes} (hd : F.drop p = be32 n ++ fc.bytes ++ rest) (h8 : 8 ≤ n) (hn : n < 2^32)
    (hf : 2 ≤ e.fuel) : Go e F p 0 parseHeadR ⟨⟨false, n⟩, fc⟩ (p + 8) := by
  rw [List.append_assoc] at hd
  refine .bind (.readU32 hd hn hf) ?_ (k2 := 0) (by omega)
  refine .bind (.read (drop_next hd (be32_length _)) (by rfl) (by omega) (by omega) hf) ?_ (k2 := 0) (by omega)
  dsimp only
  rw [if_neg (by omega), if_neg (by omega)]
  exact .pure

theorem Go.fullHead {v : UInt8} {fl rest : Bytes} (hd : F.drop p = v :: (fl ++ rest)) (hl : fl.length = 3) (hf : 2 ≤ e.fuel) :
    Go e F p 0 parseFullHeadR (v, fl) (p + 4) := by
  refine .bind (.readU8 hd hf) ?_ (k2 := 0) (by omega)
  refine .bind (.read (drop_next (bs := [v]) hd rfl) hl (by omega) (by omega) hf) ?_ (k2 := 0) (by omega)
  exact .pure

theorem Go.findBounds {s : Size} (h : s.headLen = 8) : Go e F (p + 8) 0 (findBoundsR s) ⟨p, s⟩ (p + 8) := by
  refine .bind .tell ?_ (k2 := 0) (by omega)
  refine .bind (.E (a := p) ?_) .pure (k2 := 0) (by omega)
  unfold Mp4.subU
  rw [h, if_pos (by omega), Nat.add_sub_cancel]

theorem Go.seekToEnd {x : AtomBounds} {r : Nat} (hc : e.checked = false) (hx : x.pos + x.size.len = r) (hr : r ≤ e.maxPos) (hm : e.maxPos < 2^63)
    (hp : p < 2^63) : Go e F p 0 (seekToEndR x) () r := by
  unfold seekToEndR
  refine .bind .tell (k2 := 0) ?_ (by omega)
  refine .bind (.E (a := r) ?_) (k2 := 0) ?_ (by omega)
  · show Mp4.addU x.pos x.size.len e = _
    unfold Mp4.addU
    rw [if_pos (by omega), hx]
  refine .bind (.E (a := if p ≤ r then r - p else 2^64 + r - p) ?_) (k2 := 0) ?_ (by omega)
  · unfold Mp4.subU
    split
    · rfl
    · rw [hc]; rfl
  · have := Go.seekCur (e := e) (F := F) (p := p) (x := asI64 (if p ≤ r then r - p else 2^64 + r - p)) (r := r) (by
      unfold asI64
      split <;> split <;> omega) hr
    exact fun t ht => by
      obtain ⟨t', h1, h2, h3⟩ := this t ht
      exact ⟨t', h1, h2, by omega⟩

/-! ### Descriptors -/

theorem Go.descHead {tag : UInt8} {d : Nat} {rest : Bytes} (hd : F.drop p = tag :: groups d ++ rest) (h : d < 2^28) (hf : 2 ≤ e.fuel) :
    Go e F p 2 parseDescHeadR (tag, 5, d) (p + 5) := by
  have h1 : F.drop (p + 1) = groups d ++ rest := drop_next (bs := [tag]) hd rfl
  refine .bind (.readU8 hd hf) (k2 := 1) ?_ (by omega)
  have hg : Go e F (p + 1) 1 (descHeadLoopR 4 1 0) (5, d) (p + 5) := by
    have big : ∀ x, (UInt8.ofNat (128 + x % 128)).toNat = 128 + x % 128 := fun x => by
      rw [UInt8.toNat_ofNat']; omega
    have small : (UInt8.ofNat (d % 128)).toNat = d % 128 := by rw [UInt8.toNat_ofNat']; omega
    have h2 := drop_next (p := p + 1) (bs := [_]) (n := 1) h1 rfl
    have h3 := drop_next (p := p + 1 + 1) (bs := [_]) (n := 1) h2 rfl
    have h4 := drop_next (p := p + 1 + 1 + 1) (bs := [_]) (n := 1) h3 rfl
    rw [descHeadLoopR]
    refine .bind (.readU8 h1 hf) (k2 := 0) ?_ (by omega)
    dsimp only
    rw [big, if_neg (by omega), descHeadLoopR]
    refine .bind (.readU8 h2 hf) (k2 := 0) ?_ (by omega)
    dsimp only
    rw [big, if_neg (by omega), descHeadLoopR]
    refine .bind (.readU8 h3 hf) (k2 := 0) ?_ (by omega)
    dsimp only
    rw [big, if_neg (by omega), descHeadLoopR]
    refine .bind (.readU8 h4 hf) (k2 := 0) ?_ (by omega)
    dsimp only
    rw [small, if_pos (by omega)]
    have : ((0 * 128 + (128 + d / 2 ^ 21 % 128) % 128) * 128 + (128 + d / 2 ^ 14 % 128) % 128) * 128 + (128 + d / 2 ^ 7 % 128) % 128 = d / 2^7 := by
      omega
    rw [this, show d / 2^7 * 128 + d % 128 % 128 = d by omega]
    exact .pure
  exact .bind hg .pure (k2 := 0) (by omega)

theorem Go.emptyDesc {rest : Bytes} (hd : F.drop p = 0 :: 0 :: rest) (hf : 2 ≤ e.fuel) : Go e F p 2 parseDescHeadR (0, 2, 0) (p + 2) := by
  refine .bind (.readU8 hd hf) (k2 := 1) ?_ (by omega)
  have hg : Go e F (p + 1) 1 (descHeadLoopR 4 1 0) (2, 0) (p + 2) := by
    rw [descHeadLoopR]
    refine .bind (.readU8 (drop_next (bs := [0]) hd rfl) hf) (k2 := 0) ?_ (by omega)
    dsimp only
    rw [if_pos (by decide)]
    exact .pure
  exact .bind hg .pure (k2 := 0) (by omega)

/-- The empty descriptors. -/
theorem Go.stride {wanted : UInt8} {handle : Mp4a → Nat → R Mp4a} {limit : Nat} (hw : wanted ≠ 0) (hl : limit < 2^63) (hf : 2 ≤ e.fuel)
    (hm : F.length ≤ e.maxPos) : ∀ m f info parsed p, F.drop p = List.replicate (2 * m) 0 → parsed + 2 * m = limit → m < f → p ≤ F.length →
      Go e F p (3 * m) (descWalkR wanted handle limit f info parsed) info (p + 2 * m) := by
  intro m
  induction m with
  | zero =>
    intro f info parsed p _ hp hf' _
    obtain ⟨f, rfl⟩ : ∃ g, f = g + 1 := ⟨f - 1, by omega⟩
    rw [descWalkR, if_neg (by omega)]
    exact .pure
  | succ m ih =>
    intro f info parsed p hd hp hf' hpl
    obtain ⟨f, rfl⟩ : ∃ g, f = g + 1 := ⟨f - 1, by omega⟩
    have hd' : F.drop p = 0 :: 0 :: List.replicate (2 * m) 0 := by
      rw [hd, show 2 * (m + 1) = 2 * m + 1 + 1 by omega]; rfl
    have hlen : p + 2 ≤ F.length := by
      have := congrArg List.length hd'
      simp at this
      omega
    rw [descWalkR, if_pos (by omega)]
    refine .bind (.emptyDesc hd' hf) (k2 := 3 * m + 1) ?_ (by omega)
    dsimp only
    rw [if_neg (fun h => hw h.symm)]
    refine .bind (.bind (.seekCur (r := p + 2) (by unfold asI64; simp) (by omega)) .pure (k := 1) (by omega)) (k2 := 3 * m) ?_ (by omega)
    refine .bind (.E (a := 2) (by rfl)) (k2 := 3 * m) ?_ (by omega)
    refine .bind (.E (a := parsed + 2) (by unfold Mp4.addU; rw [if_pos (by omega)])) (k2 := 3 * m) ?_ (by omega)
    have := ih f info (parsed + 2) (p + 2) (drop_next (bs := [0, 0]) hd' rfl) (by omega) (by omega) hlen
    rwa [show p + 2 * (m + 1) = p + 2 + 2 * m by omega]

/-! ### The atoms -/

theorem groups_length (d : Nat) : (groups d).length = 4 := rfl

theorem Go.mp4a (hc : e.checked = false) {d m : Nat} {X : Bytes} (hd : F.drop p = strideAtom d m ++ X) (hx : X.drop d = List.replicate (2 * m) 0)
    (hdx : d ≤ X.length) (hb : 8 + d + 2 * m < 2^28) (hf : m + 2 ≤ e.fuel) (hm : F.length ≤ e.maxPos) (hm' : e.maxPos < 2^63) :
    Go e F (p + 8) (3 * m) (parseMp4aR ⟨false, 61⟩) {} (p + 61) := by
  have hlen := congrArg List.length hd
  rw [List.length_append, List.length_drop] at hlen
  have h61 : (strideAtom d m).length = 61 := rfl
  have hxl : X.length = d + 2 * m := by
    have := congrArg List.length hx
    rw [List.length_drop, List.length_replicate] at this
    omega
  have hf2 : 2 ≤ e.fuel := by omega
  unfold strideAtom at hd
  simp only [List.append_assoc] at hd
  have h1 := drop_next (n := 4) hd rfl
  have h2 := drop_next (n := 4) h1 rfl
  have h3 := drop_next (n := 28) h2 (by rw [List.length_replicate])
  have h4 := drop_next (n := 4) h3 rfl
  have h5 := drop_next (n := 4) h4 rfl
  have h6 := drop_next (n := 4) h5 rfl
  have h7 := drop_next (n := 5) h6 rfl
  have h8 := drop_next (n := 3) h7 rfl
  have h9 := drop_next (n := 5) h8 rfl
  have h10 : F.drop (p + 61 + d) = List.replicate (2 * m) 0 := by
    rw [← hx, ← h9, List.drop_drop]
  unfold parseMp4aR
  refine .bind (.findBounds rfl) (k2 := 3 * m) ?_ (by omega)
  refine .bind (.seekCur (r := p + 36) (by omega) (by omega)) (k2 := 3 * m) ?_ (by omega)
  refine .bind (.parseHead (n := 8 + 4 + 5 + (3 + 5 + d + 2 * m)) (fc := cc 'e' 's' 'd' 's') (by rw [List.append_assoc]; exact h3) (by omega) (by omega) hf2) (k2 := 3 * m) ?_ (by omega)
  rw [if_neg (show ¬ (cc 'e' 's' 'd' 's' ≠ ELEMENTARY_STREAM_DESCRIPTION) by decide)]
  have hes : Go e F (p + 44) (3 * m) (parseEsdsR {} ⟨false, 8 + 4 + 5 + (3 + 5 + d + 2 * m)⟩) {} (p + 61 + d + 2 * m) := by
    unfold parseEsdsR
    refine .bind (.fullHead (v := 0) (fl := [2, 2, 2]) h5 rfl hf2) (k2 := 3 * m) ?_ (by omega)
    dsimp only
    rw [if_neg (by simp)]
    refine .bind (.descHead (tag := 3) (d := 3 + 5 + d + 2 * m) h6 (by omega) hf2) (k2 := 3 * m) ?_ (by omega)
    dsimp only
    rw [if_neg (by simp)]
    refine .bind (.E (a := 4 + 5 + (3 + 5 + d + 2 * m)) ?_) (k2 := 3 * m) ?_ (by omega)
    · show Mp4.subU (8 + 4 + 5 + (3 + 5 + d + 2 * m)) 8 e = _
      unfold Mp4.subU
      rw [if_pos (by omega)]
      congr 1
      omega
    refine .bind (.E (a := 5 + (3 + 5 + d + 2 * m)) ?_) (k2 := 3 * m) ?_ (by omega)
    · unfold Mp4.subU
      rw [if_pos (by omega)]
      congr 1
      omega
    refine .bind (.E (a := 3 + 5 + d + 2 * m) ?_) (k2 := 3 * m) ?_ (by omega)
    · unfold Mp4.subU
      rw [if_pos (by omega)]
      congr 1
      omega
    rw [Nat.min_self]
    unfold parseEsDescR
    refine .bind (.seekCur (r := p + 56) (by omega) (by omega)) (k2 := 3 * m) ?_ (by omega)
    refine .bind .getFuel (k2 := 3 * m) ?_ (by omega)
    obtain ⟨f, hfe⟩ : ∃ f, e.fuel = f + 1 := ⟨e.fuel - 1, by omega⟩
    rw [hfe, descWalkR, if_pos (by omega)]
    refine .bind (.descHead (tag := 9) (d := d) (by exact h8) (by omega) hf2) (k2 := 3 * m) ?_ (by omega)
    dsimp only
    rw [if_neg (by decide)]
    refine .bind (.bind (.seekCur (r := p + 61 + d) (by rw [asI64_small (by omega)]; omega) (by omega)) .pure (k := 1) (by omega)) (k2 := 3 * m) ?_ (by omega)
    refine .bind (.E (a := 5 + d) (by unfold Mp4.addU; rw [if_pos (by omega)])) (k2 := 3 * m) ?_ (by omega)
    refine .bind (.E (a := 3 + (5 + d)) (by unfold Mp4.addU; rw [if_pos (by omega)])) (k2 := 3 * m) ?_ (by omega)
    exact .stride (by decide) (by omega) hf2 hm m f {} _ _ h10 (by omega) (by omega) (by omega)
  refine .bind hes (k2 := 0) ?_ (by omega)
  exact .bind (.seekToEnd (x := ⟨p, ⟨false, 61⟩⟩) (r := p + 61) hc rfl (by omega) hm' (by omega)) .pure (by omega)

/-- All of them. -/
theorem Go.mp4as (hc : e.checked = false) {m lim : Nat} {limit : Mp4.E Nat} (hlim : limit e = .ok lim) (hl : lim < 2^63) (hm : F.length ≤ e.maxPos) (hm' : e.maxPos < 2^63) (hfm : m + 2 ≤ e.fuel) :
    ∀ n f s parsed p, F.drop p = strideAtoms m n ++ List.replicate (2 * m) 0 → parsed + 61 * n = lim → n < f → 8 + 61 * n + 2 * m < 2^28 →
      Go e F p (3 * m * n) (walkR limit (fun s h =>
        if h.fourcc = MP4_AUDIO then do let a ← parseMp4aR h.size; Pure.pure (some a)
        else do skipContentR h; Pure.pure s) f s parsed) (if n = 0 then s else some {}) (p + 61 * n) := by
  intro n
  induction n with
  | zero =>
    intro f s parsed p _ hp hf _
    obtain ⟨f, rfl⟩ : ∃ g, f = g + 1 := ⟨f - 1, by omega⟩
    rw [walkR]
    refine .bind (.E hlim) (k2 := 0) ?_ (by omega)
    rw [if_neg (by omega)]
    exact .pure
  | succ n ih =>
    intro f s parsed p hd hp hf hb
    obtain ⟨f, rfl⟩ : ∃ g, f = g + 1 := ⟨f - 1, by omega⟩
    rw [walkR]
    refine .bind (.E hlim) (k2 := 3 * m * (n + 1)) ?_ (by omega)
    rw [if_pos (by omega)]
    rw [strideAtoms, List.append_assoc] at hd
    have hn := drop_next (n := 61) hd rfl
    have hsl : ∀ n, (strideAtoms m n).length = 61 * n := by
      intro n
      induction n with
      | zero => rfl
      | succ n ih => rw [strideAtoms, List.length_append, ih, show (strideAtom (61 * n) m).length = 61 from rfl]; omega
    have hmp : Go e F (p + 8) (3 * m) (parseMp4aR ⟨false, 61⟩) {} (p + 61) := by
      refine .mp4a hc hd ?_ ?_ (by omega) hfm hm hm'
      · rw [← hsl n, List.drop_left]
      · rw [List.length_append, hsl]; omega
    obtain ⟨rest, hr⟩ : ∃ rest, strideAtom (61 * n) m = be32 61 ++ (cc 'm' 'p' '4' 'a').bytes ++ rest :=
      ⟨_, by unfold strideAtom; simp only [List.append_assoc]; rfl⟩
    refine .bind (.parseHead (n := 61) (fc := cc 'm' 'p' '4' 'a') (by rw [hd, hr, List.append_assoc _ rest]) (by omega) (by omega) (by omega))
      (k2 := 3 * m * (n + 1)) ?_ (by omega)
    have h1 : Go e F (p + 8) (3 * m) (do let a ← parseMp4aR ⟨false, 61⟩; Pure.pure (some a)) (some {}) (p + 61) := .bind hmp .pure (by omega)
    dsimp only
    rw [if_pos (by decide)]
    refine .bind h1 (k2 := 3 * m * n) ?_ (by rw [Nat.mul_add]; omega)
    refine .bind (.E (a := parsed + 61) (by unfold Mp4.addU; rw [if_pos (by omega)])) (k2 := 3 * m * n) ?_ (by omega)
    have := ih f (some {}) (parsed + 61) (p + 61) hn (by omega) (by omega) (by omega)
    rw [show (if n = 0 then some ({} : Mp4a) else some {}) = some {} by split <;> rfl] at this
    rwa [if_neg (by omega), show p + 61 * (n + 1) = p + 61 + 61 * n by omega]

/-- A container with one child. -/
theorem Go.one {σ} {limit : Mp4.E Nat} {handle : σ → Head → R σ} {s s' : σ} {n : Nat} {fc : Fourcc} {rest : Bytes} (hl : limit e = .ok n)
    (hd : F.drop p = be32 n ++ (fc.bytes ++ rest)) (h8 : 8 ≤ n) (hn : n < 2^32) (hf : 2 ≤ e.fuel)
    (h : Go e F (p + 8) k (handle s ⟨⟨false, n⟩, fc⟩) s' q) : Go e F p k (loopR limit handle s 0) s' q := by
  obtain ⟨f, hfe⟩ : ∃ f, e.fuel = f + 2 := ⟨e.fuel - 2, by omega⟩
  refine .bind .getFuel (k2 := k) ?_ (by omega)
  rw [hfe, walkR]
  refine .bind (.E hl) (k2 := k) ?_ (by omega)
  rw [if_pos (by omega)]
  refine .bind (.parseHead (rest := rest) (by rw [List.append_assoc]; exact hd) h8 hn hf) (k2 := k) ?_ (by omega)
  refine .bind h (k2 := 0) ?_ (by omega)
  refine .bind (.E (a := n) (by unfold Mp4.addU; rw [if_pos (by show 0 + n < _; omega)]; show Out.ok (0 + n) = _; rw [Nat.zero_add])) (k2 := 0) ?_ (by omega)
  rw [walkR]
  refine .bind (.E hl) (k2 := 0) ?_ (by omega)
  rw [if_neg (by omega)]
  exact .pure

theorem contentLen_ok {n : Nat} (h : 8 ≤ n) : Size.contentLen ⟨false, n⟩ e = .ok (n - 8) := by
  show Mp4.subU n 8 e = _
  unfold Mp4.subU
  rw [if_pos h]

theorem strideAtoms_length (m n : Nat) : (strideAtoms m n).length = 61 * n := by
  induction n with
  | zero => rfl
  | succ n ih => rw [strideAtoms, List.length_append, ih, show (strideAtom (61 * n) m).length = 61 from rfl]; omega

theorem strideFile_length (n m : Nat) : (strideFile n m).length = 64 + 61 * n + 2 * m := by
  unfold strideFile
  simp only [List.length_append, be32_length, strideAtoms_length, List.length_replicate]
  simp only [show ∀ c : Fourcc, c.bytes.length = 4 from fun _ => rfl, List.length_cons, List.length_nil]
  omega

theorem Go.readTag (hc : e.checked = false) {n m : Nat} (h0 : 0 < n) (hb : 8 + 61 * n + 2 * m < 2^28) (hf : 2 + n + m ≤ e.fuel)
    (hm : (strideFile n m).length ≤ e.maxPos) (hm' : e.maxPos < 2^63) :
    ∃ t q, Go e (strideFile n m) 0 (3 * m * n) readTagR t q := by
  have hlen := strideFile_length n m
  have hF : strideFile n m = strideFile n m := rfl
  conv at hF => rhs; unfold strideFile; simp only [List.append_assoc]
  generalize strideFile n m = F at hm hlen hF ⊢
  have hd : F.drop 0 = F := rfl
  conv at hd => rhs; rw [hF]
  have hf2 : 2 ≤ e.fuel := by omega
  have a1 := drop_next (n := 4) hd rfl
  have a2 := drop_next (n := 4) a1 rfl
  have b1 := drop_next (n := 4) a2 rfl
  have b2 := drop_next (n := 4) b1 rfl
  have c1 := drop_next (n := 4) b2 rfl
  have c2 := drop_next (n := 4) c1 rfl
  have d1 := drop_next (n := 4) c2 rfl
  have d2 := drop_next (n := 4) d1 rfl
  have e1 := drop_next (n := 4) d2 rfl
  have e2 := drop_next (n := 4) e1 rfl
  have f1 := drop_next (n := 4) e2 rfl
  have f2 := drop_next (n := 4) f1 rfl
  have g1 := drop_next (n := 4) f2 rfl
  have g2 := drop_next (n := 4) g1 rfl
  have g3 := drop_next (n := 8) g2 rfl
  have stsd : Go e F 56 (3 * m * n) (parseStsdR ⟨false, 16 + 61 * n⟩) (some {}) (64 + 61 * n) := by
    unfold parseStsdR
    refine .bind (.fullHead (v := 0) (fl := [2, 2, 2]) (by exact g2) rfl hf2) (k2 := 3 * m * n) ?_ (by omega)
    dsimp only
    rw [if_neg (by simp)]
    refine .bind (.seekCur (r := 64) (by omega) (by omega)) (k2 := 3 * m * n) ?_ (by omega)
    refine .bind .getFuel (k2 := 3 * m * n) ?_ (by omega)
    have := Go.mp4as hc (F := F) (m := m) (lim := 8 + 61 * n) (limit := Size.contentLen ⟨false, 16 + 61 * n⟩)
      (by rw [contentLen_ok (by omega)]; congr 1; omega) (by omega) hm hm' (by omega) n e.fuel none 8 64 g3 rfl (by omega) hb
    rwa [if_neg (by omega)] at this
  have stbl : Go e F 48 (3 * m * n) (parseStblR ⟨false, 24 + 61 * n⟩) (some (some {})) (64 + 61 * n) := by
    refine .one (by rw [contentLen_ok (by omega)]; congr 1; omega) (by exact f2) (n := 16 + 61 * n) (by omega) (by omega) hf2 ?_
    exact .bind stsd .pure (by omega)
  have minf : Go e F 40 (3 * m * n) (parseMinfR ⟨false, 32 + 61 * n⟩) (some (some (some {}))) (64 + 61 * n) := by
    refine .one (by rw [contentLen_ok (by omega)]; congr 1; omega) (by exact e2) (n := 24 + 61 * n) (by omega) (by omega) hf2 ?_
    exact .bind stbl .pure (by omega)
  have mdia : Go e F 32 (3 * m * n) (parseMdiaR ⟨false, 40 + 61 * n⟩) (some (some (some (some {})))) (64 + 61 * n) := by
    refine .one (by rw [contentLen_ok (by omega)]; congr 1; omega) (by exact d2) (n := 32 + 61 * n) (by omega) (by omega) hf2 ?_
    exact .bind minf .pure (by omega)
  have trak : Go e F 24 (3 * m * n) (parseTrakR ⟨false, 48 + 61 * n⟩) (some (some (some (some (some {}))))) (64 + 61 * n) := by
    refine .one (by rw [contentLen_ok (by omega)]; congr 1; omega) (by exact c2) (n := 40 + 61 * n) (by omega) (by omega) hf2 ?_
    exact .bind mdia .pure (by omega)
  have moov : Go e F 16 (3 * m * n) (parseMoovR ⟨false, 56 + 61 * n⟩) { trak := [some (some (some (some (some {}))))] } (64 + 61 * n) := by
    refine .one (by rw [contentLen_ok (by omega)]; congr 1; omega) (by exact b2) (n := 48 + 61 * n) (by omega) (by omega) hf2 ?_
    exact .bind trak .pure (by omega)
  refine ⟨_, 64 + 61 * n, .bind (a := []) (q := 8) (k1 := 0) ?_ (k2 := 3 * m * n) (.bind (a := F.length - 8) (q := 8) (k1 := 0) ?_ (k2 := 3 * m * n)
    (.bind .getFuel (k2 := 3 * m * n) (.bind (a := { trak := [some (some (some (some (some {}))))] }) (q := 64 + 61 * n) (k1 := 3 * m * n) ?_ .pure (by omega))
    (by omega)) (by omega)) (by omega)⟩
  · refine .bind (.parseHead (n := 8) (fc := cc 'f' 't' 'y' 'p') (rest := _) (by rw [List.append_assoc]; exact hd) (by omega) (by omega) hf2) (k2 := 0) ?_ (by omega)
    rw [if_neg (by decide)]
    refine .bind (.E (contentLen_ok (Nat.le_refl _))) (k2 := 0) ?_ (by omega)
    refine .bind (a := []) (q := 8) (k1 := 0) (k2 := 0) (.bind .alloc (k2 := 0) (.readNone hf2) (by omega)) ?_ (by omega)
    exact .pure
  · refine .bind .tell (k2 := 0) ?_ (by omega)
    refine .bind .seekEnd (k2 := 0) ?_ (by omega)
    refine .bind (.E (a := F.length - 8) (by unfold Mp4.subU; rw [if_pos (by omega)])) (k2 := 0) ?_ (by omega)
    exact .bind (.seekStart (by omega)) .pure (by omega)
  · obtain ⟨f, hfe⟩ : ∃ f, e.fuel = f + 1 := ⟨e.fuel - 1, by omega⟩
    rw [hfe, topWalkR, if_neg (by omega)]
    refine .bind (.parseHead (n := 56 + 61 * n) (fc := cc 'm' 'o' 'o' 'v') (rest := _) (by rw [List.append_assoc]; exact a2) (by omega) (by omega) hf2)
      (k2 := 3 * m * n) ?_ (by omega)
    rw [if_pos (show cc 'm' 'o' 'o' 'v' = MOVIE by decide)]
    exact moov

/-! ### There are no 64 bit sizes -/

/-- Counts the zeros directly in front; none if three of them are followed by a one. -/
def scanOne : Nat → Bytes → Option Nat
  | z, [] => some z
  | z, b :: bs => if b = 0 then scanOne (z + 1) bs else if b = 1 ∧ 3 ≤ z then none else scanOne 0 bs

theorem scanOne_append (z : Nat) (a b : Bytes) : scanOne z (a ++ b) = (scanOne z a).bind (scanOne · b) := by
  induction a generalizing z with
  | nil => rfl
  | cons x a ih =>
    rw [List.cons_append, scanOne, scanOne]
    split
    · exact ih _
    · split
      · rfl
      · exact ih _

theorem scanOne_sane {F : Bytes} {z : Nat} (h : scanOne 0 F = some z) : SaneSizes F := by
  rintro fc n rest ⟨_, A, rfl⟩
  exfalso
  rw [show headBytes true fc n = be32 1 ++ (fc.bytes ++ be64 n) by rfl, List.append_assoc, List.append_assoc, scanOne_append] at h
  rcases hx : scanOne 0 A with _ | z'
  · rw [hx] at h; cases h
  · rw [hx] at h
    change scanOne z' ([0, 0, 0, 1] ++ _) = some z at h
    simp [scanOne] at h

theorem scanOne_big {z : Nat} {b : UInt8} {bs : Bytes} (h : 2 ≤ b.toNat) : scanOne z (b :: bs) = scanOne 0 bs := by
  have h0 : b ≠ 0 := by rintro rfl; simp at h
  have h1 : b ≠ 1 := by rintro rfl; simp at h
  rw [scanOne, if_neg h0, if_neg fun hx => h1 hx.1]

theorem scanOne_be32 {n : Nat} {bs : Bytes} (h1 : n ≠ 1) (hn : n < 2^32) : ∃ z, scanOne 0 (be32 n ++ bs) = scanOne z bs := by
  have : be32 n ≠ [0, 0, 0, 1] := fun h => h1 (by rw [← beNat_be32 n hn, h]; rfl)
  unfold be32 at this ⊢
  generalize UInt8.ofNat (n / 2^24) = a, UInt8.ofNat (n / 2^16) = b, UInt8.ofNat (n / 2^8) = c, UInt8.ofNat n = d at this ⊢
  show ∃ z, scanOne 0 (a :: b :: c :: d :: bs) = _
  have step : ∀ (z : Nat) (x : UInt8) (ys : Bytes), z < 3 → ∃ z', z' ≤ z + 1 ∧ (x ≠ 0 → z' = 0) ∧ scanOne z (x :: ys) = scanOne z' ys := by
    intro z x ys hz
    rw [scanOne]
    split
    · exact ⟨z + 1, by omega, fun h => absurd ‹_› h, rfl⟩
    · rw [if_neg (by omega)]
      exact ⟨0, by omega, fun _ => rfl, rfl⟩
  obtain ⟨z1, l1, n1, e1⟩ := step 0 a (b :: c :: d :: bs) (by omega)
  obtain ⟨z2, l2, n2, e2⟩ := step z1 b (c :: d :: bs) (by omega)
  obtain ⟨z3, l3, n3, e3⟩ := step z2 c (d :: bs) (by omega)
  rw [e1, e2, e3]
  by_cases hz : z3 < 3
  · obtain ⟨z4, _, _, e4⟩ := step z3 d bs hz
    exact ⟨z4, e4⟩
  · rw [scanOne]
    split
    · exact ⟨_, rfl⟩
    · rw [if_neg ?_]
      · exact ⟨0, rfl⟩
      · rintro ⟨rfl, _⟩
        have hc : c = 0 := by
          apply Classical.byContradiction; intro h; have := n3 h; omega
        have hb : b = 0 := by
          apply Classical.byContradiction; intro h; have := n2 h; omega
        have ha : a = 0 := by
          apply Classical.byContradiction; intro h; have := n1 h; omega
        subst ha hb hc
        exact this rfl

/-- A head. -/
theorem scanOne_head {n : Nat} (fc : Fourcc) {bs : Bytes} (h1 : n ≠ 1) (hn : n < 2^32) (h : ∀ b ∈ fc.bytes, 2 ≤ b.toNat) :
    scanOne 0 (be32 n ++ (fc.bytes ++ bs)) = scanOne 0 bs := by
  obtain ⟨z, hz⟩ := scanOne_be32 (bs := fc.bytes ++ bs) h1 hn
  rw [hz]
  obtain ⟨a, b, c, d, hf⟩ : ∃ a b c d, fc.bytes = [a, b, c, d] := ⟨_, _, _, _, rfl⟩
  rw [hf] at h ⊢
  show scanOne z (a :: b :: c :: d :: bs) = _
  rw [scanOne_big (h a (by simp)), scanOne_big (h b (by simp)), scanOne_big (h c (by simp)), scanOne_big (h d (by simp))]

theorem scanOne_groups {z d : Nat} {bs : Bytes} : ∃ z', z' ≤ 1 ∧ scanOne z (groups d ++ bs) = scanOne z' bs := by
  have big : ∀ x, 2 ≤ (UInt8.ofNat (128 + x % 128)).toNat := fun x => by
    rw [UInt8.toNat_ofNat']; omega
  show ∃ z', z' ≤ 1 ∧ scanOne z (_ :: _ :: _ :: _ :: bs) = _
  rw [scanOne_big (big _), scanOne_big (big _), scanOne_big (big _), scanOne]
  split
  · exact ⟨1, by omega, rfl⟩
  · rw [if_neg (by omega)]
    exact ⟨0, by omega, rfl⟩

theorem scanOne_twos (z n : Nat) (bs : Bytes) : scanOne z (List.replicate (n + 1) 2 ++ bs) = scanOne 0 bs := by
  induction n generalizing z with
  | zero => exact scanOne_big (by decide)
  | succ n ih =>
    rw [List.replicate_succ, List.cons_append, scanOne_big (by decide)]
    exact ih 0

theorem scanOne_zeros (z n : Nat) : scanOne z (List.replicate n 0) = some (z + n) := by
  induction n generalizing z with
  | zero => rfl
  | succ n ih => rw [List.replicate_succ, scanOne, if_pos rfl, ih]; congr 1; omega

theorem scanOne_atom {d m z : Nat} {bs : Bytes} (hb : 8 + d + 2 * m < 2^28) : ∃ z', z' ≤ 1 ∧ scanOne z (strideAtom d m ++ bs) = scanOne z' bs := by
  unfold strideAtom
  simp only [List.append_assoc]
  have h1 : ∀ bs : Bytes, scanOne z (be32 61 ++ ((cc 'm' 'p' '4' 'a').bytes ++ bs)) = scanOne 0 bs := fun bs => by
    show scanOne z (0 :: 0 :: 0 :: 61 :: 0x6d :: 0x70 :: 0x34 :: 0x61 :: bs) = _
    simp [scanOne]
  rw [h1, scanOne_twos, scanOne_head _ (by omega) (by omega) (by decide)]
  have h2 : ∀ bs : Bytes, scanOne 0 ([0, 2, 2, 2] ++ (3 :: bs)) = scanOne 0 bs := fun bs => by
    simp [scanOne]
  rw [show ∀ x y : Bytes, (3 :: x ++ y : Bytes) = 3 :: (x ++ y) from fun _ _ => rfl, h2]
  obtain ⟨z1, _, e1⟩ := scanOne_groups (z := 0) (d := 3 + 5 + d + 2 * m) (bs := [2, 2, 2] ++ (9 :: groups d ++ bs))
  rw [e1]
  have h3 : ∀ bs : Bytes, scanOne z1 ([2, 2, 2] ++ (9 :: bs)) = scanOne 0 bs := fun bs => by
    simp [scanOne]
  rw [show ∀ x y : Bytes, (9 :: x ++ y : Bytes) = 9 :: (x ++ y) from fun _ _ => rfl, h3]
  exact scanOne_groups

theorem scanOne_atoms {m : Nat} {bs : Bytes} : ∀ n z, 8 + 61 * n + 2 * m < 2^28 → ∃ z', scanOne z (strideAtoms m n ++ bs) = scanOne z' bs := by
  intro n
  induction n with
  | zero => intro z _; exact ⟨z, rfl⟩
  | succ n ih =>
    intro z hb
    rw [strideAtoms, List.append_assoc]
    obtain ⟨z1, _, e1⟩ := scanOne_atom (z := z) (d := 61 * n) (m := m) (bs := strideAtoms m n ++ bs) (by omega)
    rw [e1]
    exact ih z1 (by omega)

theorem strideFile_sane {n m : Nat} (hb : 8 + 61 * n + 2 * m < 2^28) : SaneSizes (strideFile n m) := by
  have : ∃ z, scanOne 0 (strideFile n m) = some z := by
    unfold strideFile
    simp only [List.append_assoc]
    have h : ∀ bs : Bytes, scanOne 0 ([0, 2, 2, 2, 2, 2, 2, 2] ++ bs) = scanOne 0 bs := fun bs => by simp [scanOne]
    rw [scanOne_head (cc 'f' 't' 'y' 'p') (by omega) (by omega) (by decide), scanOne_head (cc 'm' 'o' 'o' 'v') (by omega) (by omega) (by decide), scanOne_head (cc 't' 'r' 'a' 'k') (by omega) (by omega) (by decide), scanOne_head (cc 'm' 'd' 'i' 'a') (by omega) (by omega) (by decide), scanOne_head (cc 'm' 'i' 'n' 'f') (by omega) (by omega) (by decide), scanOne_head (cc 's' 't' 'b' 'l') (by omega) (by omega) (by decide), scanOne_head (cc 's' 't' 's' 'd') (by omega) (by omega) (by decide)]
    rw [h]
    obtain ⟨z, hz⟩ := scanOne_atoms (m := m) (bs := List.replicate (2 * m) 0) n 0 hb
    rw [hz]
    exact ⟨_, scanOne_zeros _ _⟩
  obtain ⟨z, hz⟩ := this
  exact scanOne_sane hz

/-- The number of calls. -/
theorem stride_calls (hc : e.checked = false) {n m : Nat} (h0 : 0 < n) (hb : 8 + 61 * n + 2 * m < 2^28) (hf : (strideFile n m).length ≤ e.fuel)
    (hm : (strideFile n m).length ≤ e.maxPos) (hm' : e.maxPos < 2^63) :
    (∃ t, (readTagVia promptly e (strideFile n m) 0).1 = .ok t) ∧
    3 * m * n ≤ busy promptly (readTagVia promptly e (strideFile n m) 0).2.tick := by
  have hlen := strideFile_length n m
  obtain ⟨t, q, h⟩ := Go.readTag hc h0 hb (by omega) hm hm'
  obtain ⟨s, hs, _, hk⟩ := h { pos := 0 } rfl
  have hbusy : ∀ k, busy promptly k = k := by
    intro k
    have : intrCount promptly k = 0 := by
      unfold intrCount
      rw [List.length_eq_zero_iff, List.filter_eq_nil_iff]
      intro a _
      simp [promptly]
    unfold busy
    rw [this, Nat.sub_zero]
  unfold readTagVia
  rw [hs, hbusy]
  exact ⟨⟨t, rfl⟩, by simpa using hk⟩

end

end Mp4
