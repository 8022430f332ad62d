import Verif.Spec.Stuck
import Verif.Proof.PutPut
import Verif.Proof.ReadErr
/-
Writing to a file with a malformed chunk offset table (for C77).
-/
namespace Mp4
open Spec

theorem W.bind_err {α β} {m : W α} {f : α → W β} {e s k s'} (h : m e s = (.err k, s')) : (m >>= f) e s = (.err k, s') := by
  show W.bind m f e s = _
  rw [W.bind, h]

theorem wAll_append_err {α} {f : α → W Unit} {xs ys : List α} {e s k s'} (h : wAll f xs e s = (.err k, s')) :
    wAll f (xs ++ ys) e s = (.err k, s') := by
  induction xs generalizing s with
  | nil => rw [wAll_nil] at h; cases h
  | cons x xs ih =>
    rw [List.cons_append, wAll]
    rw [wAll] at h
    rcases hx : f x e s with ⟨o, s1⟩
    cases o with
    | ok a => rw [W.bind_ok hx] at h ⊢; exact ih h
    | err k' => rw [W.bind_err hx] at h ⊢; exact h
    | panic =>
      have : (f x >>= fun _ => wAll f xs) e s = (.panic, s1) := by show W.bind _ _ _ _ = _; rw [W.bind, hx]
      rw [this] at h; cases h
    | fuel =>
      have : (f x >>= fun _ => wAll f xs) e s = (.fuel, s1) := by show W.bind _ _ _ _ = _; rw [W.bind, hx]
      rw [this] at h; cases h

theorem eight_split (R : Bytes) (h : R.length = 8) : ∃ v fl c, R = v :: fl ++ c ∧ fl.length = 3 ∧ c.length = 4 := by
  match R, h with
  | [a, b, c, d, x, y, z, w], _ => exact ⟨a, [b, c, d], [x, y, z, w], rfl, rfl, rfl⟩

/-- A malformed table is reported. -/
theorem parseTable_bad {w : Nat} {e F q} {b : Box} (hbad : TableBad w b.body) (B : Bytes) (hB : 8 ≤ B.length)
    (hat : At F q (b.body ++ B)) : ∃ k, TableErr b.body k ∧ parseTable w b.size e F q = .err k := by
  obtain ⟨v, fl, c, hR, hfl, hc⟩ := eight_split ((b.body ++ B).take 8) (by rw [List.length_take, List.length_append]; omega)
  have hat8 : At F q (v :: fl ++ c) := by
    rw [← List.take_append_drop 8 (b.body ++ B), hR] at hat
    exact hat.left
  have a1 := hat8.left
  have a2 := hat8.right (n := 4) (by simp [hfl])
  have hu : readU32 e F (q + 4) = .ok (num c, q + 4 + 4) := by
    rw [readU32, P.bind_ok (readExact_at' a2 hc e), num_eq]; rfl
  have hb8 : 8 ≤ b.body.length → b.body.take 8 = v :: fl ++ c := fun h => by
    rw [← hR, List.take_append_of_le_length h]
  have hhead : 8 ≤ b.body.length → b.body.head? = some v := fun h => by
    have := congrArg List.head? (hb8 h)
    rw [List.head?_take, if_neg (by decide)] at this
    exact this
  have hcnt : 8 ≤ b.body.length → (b.body.drop 4).take 4 = c := fun h => by
    have := congrArg (List.drop 4) (hb8 h)
    rw [List.drop_take] at this
    rw [this]
    exact List.drop_left' (by simp [hfl])
  have hheadD : 8 ≤ b.body.length → b.body.headD 0 = v := fun h => by
    rw [List.headD_eq_head?_getD, hhead h]; rfl
  rw [parseTable, P.bind_ok (parseFullHead_at a1 hfl e)]
  by_cases hv : v = 0
  · subst hv
    refine ⟨.parsing, ⟨fun h => by rw [hhead h, if_pos rfl], .inl rfl⟩, ?_⟩
    simp only [if_true]
    rw [P.bind_ok hu, P.bind_ok (E.p_ok (b.contentLen e) _ _), P.if_apply, if_pos ?_]
    · rfl
    · intro hl
      rcases hbad with h | h
      · exact h (hhead (by omega))
      · exact h (by rw [hcnt (by omega)]; omega)
  · refine ⟨.unknownVersion v, ⟨fun h => by rw [hhead h, hheadD h, if_neg (by simpa using hv)], .inr ⟨v, hv, rfl⟩⟩, ?_⟩
    simp only [hv, if_false]
    rfl

/-- `act` replaces the bytes `old` at `p` by `new` (of the same length) and then fails, with no data in the buffer. -/
structure Break (e : Env) (F0 : Bytes) (m p : Nat) (act : W Unit) (old new : Bytes) (K : ErrKind → Prop) : Prop where
  len : old.length = new.length
  run : ∀ s A B c, A.length = p → (A ++ old ++ B).length < 2^62 → (A ++ old ++ B).length ≤ e.maxPos → 8 ≤ B.length →
    s.buf = [] → Sees F0 m s (A ++ old ++ B) c →
    ∃ k s' c', K k ∧ act e s = (.err k, s') ∧ Sees F0 m s' (A ++ new ++ B) c' ∧ s'.buf = []

theorem Break.frame {e F0 m p act old new K} (X Y : Bytes) (h : Break e F0 m (p + X.length) act old new K) :
    Break e F0 m p act (X ++ old ++ Y) (X ++ new ++ Y) K := by
  refine ⟨by simp [h.len], fun s A B c hA hl hp h8 hb hs => ?_⟩
  have h1 : A ++ (X ++ old ++ Y) ++ B = (A ++ X) ++ old ++ (Y ++ B) := by simp
  have h2 : A ++ (X ++ new ++ Y) ++ B = (A ++ X) ++ new ++ (Y ++ B) := by simp
  rw [h1] at hl hp hs
  rw [h2]
  exact h.run s (A ++ X) (Y ++ B) c (by rw [List.length_append]; omega) hl hp (by rw [List.length_append]; omega) hb hs

theorem Break.congr {e F0 m p K} {a1 a2 : W Unit} {x y} (h : ∀ s, a1 e s = a2 e s) (h2 : Break e F0 m p a2 x y K) :
    Break e F0 m p a1 x y K :=
  ⟨h2.len, fun s A B c hA hl hp h8 hb hs => by rw [h s]; exact h2.run s A B c hA hl hp h8 hb hs⟩

theorem Break.first {e F0 m p K} {a1 a2 : W Unit} {x y} (h : Break e F0 m p a1 x y K) : Break e F0 m p (do a1; a2) x y K := by
  refine ⟨h.len, fun s A B c hA hl hp h8 hb hs => ?_⟩
  obtain ⟨k, s1, c1, hk, g1, k1, b1⟩ := h.run s A B c hA hl hp h8 hb hs
  exact ⟨k, s1, c1, hk, W.bind_err g1, k1, b1⟩

theorem Break.after {e F0 m p K} {a1 a2 : W Unit} {x y z} (h1 : Patch e F0 m p a1 x y) (h2 : Break e F0 m p a2 y z K) :
    Break e F0 m p (do a1; a2) x z K := by
  refine ⟨h1.1.trans h2.len, fun s A B c hA hl hp h8 hb hs => ?_⟩
  obtain ⟨s1, c1, g1, k1, b1⟩ := h1.2 s A B c hA hl hp hb hs
  have hlen : (A ++ x ++ B).length = (A ++ y ++ B).length := by simp [h1.1]
  obtain ⟨k, s2, c2, hk, g2, k2, b2⟩ := h2.run s1 A B c1 hA (by omega) (by omega) h8 b1 k1
  exact ⟨k, s2, c2, hk, by rw [W.bind_ok g1, g2], k2, b2⟩

theorem Break.wAll_first {α e F0 m p K} {f : α → W Unit} {l1 l2 : List α} {x y} (h : Break e F0 m p (wAll f l1) x y K) :
    Break e F0 m p (wAll f (l1 ++ l2)) x y K := by
  refine ⟨h.len, fun s A B c hA hl hp h8 hb hs => ?_⟩
  obtain ⟨k, s1, c1, hk, g1, k1, b1⟩ := h.run s A B c hA hl hp h8 hb hs
  exact ⟨k, s1, c1, hk, wAll_append_err g1, k1, b1⟩

theorem Break.wAll_after {α e F0 m p K} {f : α → W Unit} {l1 l2 : List α} {x y z} (h1 : Patch e F0 m p (wAll f l1) x y)
    (h2 : Break e F0 m p (wAll f l2) y z K) : Break e F0 m p (wAll f (l1 ++ l2)) x z K := by
  refine ⟨h1.1.trans h2.len, fun s A B c hA hl hp h8 hb hs => ?_⟩
  obtain ⟨s1, c1, g1, k1, b1⟩ := h1.2 s A B c hA hl hp hb hs
  have hlen : (A ++ x ++ B).length = (A ++ y ++ B).length := by simp [h1.1]
  obtain ⟨k, s2, c2, hk, g2, k2, b2⟩ := h2.run s1 A B c1 hA (by omega) (by omega) h8 b1 k1
  exact ⟨k, s2, c2, hk, by rw [wAll_append_ok g1, g2], k2, b2⟩

theorem Break.body {e F0 m p act K} {b b' : Box} (h : Break e F0 m (p + b.headLen) act b.body b'.body K) (he : b'.ext = b.ext)
    (hf : b'.fc = b.fc) : Break e F0 m p act b.ser b'.ser K := by
  have hhead : b'.head = b.head := by unfold Box.head; rw [he, hf, h.len]
  rw [Box.ser, Box.ser, hhead]
  have := Break.frame (p := p) b.head [] (by rw [Box.head_length]; exact h)
  simpa using this

theorem patchTable_break {e F0 m p} {w : Nat} {b : Box} {d : Int} (hbad : TableBad w b.body) :
    Break e F0 m p (patchTable w d ⟨p, b.size⟩) b.ser b.ser (TableErr b.body) := by
  refine ⟨rfl, fun s A B c hA hl hp h8 hb hs => ?_⟩
  have hat : At (A ++ b.ser ++ B) p (b.head ++ (b.body ++ B)) := At_intro' A [] (by simp [Box.ser]) hA
  have hat' : At (A ++ b.ser ++ B) (p + b.headLen) (b.body ++ B) := hat.right b.head_length
  have hle := hat'.le
  have hfile : s.file = A ++ b.ser ++ B := by
    have := hs.file; rwa [flushBuf_file, if_pos hb] at this
  have hcp : (⟨p, b.size⟩ : AtomBounds).contentPos e = .ok (p + b.headLen) := by
    rw [AtomBounds.contentPos, addU, if_pos (show p + b.size.headLen < 2^64 by rw [Box.size_headLen]; omega)]
    rfl
  obtain ⟨k, hk, hr⟩ := parseTable_bad (e := e) hbad B h8 hat'
  refine ⟨k, { s with cur := e.rcur s.trace.length }, _, hk, ?_, hs.move hb (e.rcur s.trace.length), hb⟩
  have hread : wRead (p + b.headLen) (parseTable w b.size) e s = (.err k, { s with cur := e.rcur s.trace.length }) := by
    have hr' : (do seekStart (p + b.headLen); parseTable w b.size : P _) e s.file 0 = .err k := by
      rw [P.bind_ok (show seekStart (p + b.headLen) e s.file 0 = .ok ((), p + b.headLen) by
        rw [seekStart, if_pos (by omega)]), hfile]
      exact hr
    rw [wRead]; simp only [hr']
  rw [patchTable, W.bind_ok (E.w_ok hcp s)]
  exact W.bind_err hread

theorem getLast_sel {κ β} {sel : κ → Option β} {ks : List κ} {x : β} (h : (ks.filterMap sel).getLast? = some x) :
    ∃ A k B, ks = A ++ k :: B ∧ sel k = some x ∧ ∀ y ∈ B, sel y = none := by
  rcases last_split (fun k => sel k ≠ none) ks with hn | ⟨A, k, B, rfl, hk, hB⟩
  · have : ks.filterMap sel = [] := List.filterMap_eq_nil_iff.mpr fun k hk => Decidable.not_not.mp (hn k hk)
    rw [this] at h; cases h
  · have hB' : ∀ y ∈ B, sel y = none := fun y hy => Decidable.not_not.mp (hB y hy)
    obtain ⟨y, hy⟩ := Option.ne_none_iff_exists'.mp hk
    refine ⟨A, k, B, rfl, ?_, hB'⟩
    rw [List.filterMap_append, List.filterMap_cons, hy, List.filterMap_eq_nil_iff.mpr hB'] at h
    rw [List.getLast?_concat] at h
    rw [hy, h]

theorem leaf_break {e F0 m p} {w : Nat} {fc : Fourcc} {d : Int} {s : List Box} {body : Bytes}
    (h : (s.filterMap (Box.sel fc)).getLast? = some body) (hbad : TableBad w body) :
    Break e F0 m p (wOpt (patchTable w d) (lastAt id (leafAt fc) p s)) (serL id s) (serL id s) (TableErr body) := by
  obtain ⟨A, b, B, rfl, hb, hB⟩ := getLast_sel h
  have hfc : b.fc = fc ∧ b.body = body := by
    rw [Box.sel] at hb
    split at hb
    · injection hb with hb; exact ⟨by assumption, hb⟩
    · cases hb
  rw [lastAt_split (b := ⟨p + (serL id A).length, b.size⟩) (by rw [leafAt, if_pos hfc.1])
    (fun x hx q => by
      have := hB x hx
      rw [Box.sel] at this
      rw [leafAt]
      split at this
      · cases this
      · rw [if_neg (by assumption)])]
  have := Break.frame (p := p) (serL id A) (serL id B)
    (patchTable_break (e := e) (F0 := F0) (m := m) (d := d) (w := w) (b := b) (by rw [hfc.2]; exact hbad))
  rw [hfc.2] at this
  rw [serL_append, serL_cons]
  simpa [wOpt] using this

theorem stbl_break32 {e F0 m q} {b : Box} {d : Int} {s : Stbl} {body : Bytes} (hb : b.body = s.ser) (h : s.Stuck32 body) :
    Break e F0 m q (patchStbl d (stblB q b s)) b.ser b.ser (TableErr body) := by
  refine Break.body ?_ rfl rfl
  rw [hb, patchStbl]
  exact Break.first (leaf_break h.1 h.2)

theorem stbl_break64 {e F0 m q} {b : Box} {d : Int} {s : Stbl} {body : Bytes} (hd : -2^62 ≤ d ∧ d < 2^62) (hm : m ≤ q)
    (hb : b.body = s.ser) (h : s.Stuck64 body) :
    Break e F0 m q (patchStbl d (stblB q b s)) b.ser (⟨b.ext, b.fc, (s.shift32 d).ser⟩ : Box).ser (TableErr body) := by
  have hpos := b.headLen_pos
  refine Break.body ?_ rfl rfl
  rw [hb, patchStbl]
  have h1 := leaf_patch (e := e) (F0 := F0) (w := 4) (fc := cc 's' 't' 'c' 'o') (s := s) (.inl rfl) hd
    (show m ≤ q + b.headLen by omega) h.1
  have h2 := leaf_break (e := e) (F0 := F0) (m := m) (w := 8) (fc := cc 'c' 'o' '6' '4') (p := q + b.headLen) (d := d)
    (s := s.shift32 d) (body := body) (by rw [Stbl.shift32, box_sel_mapTable (by decide)]; exact h.2.1) h.2.2
  rw [Stbl.shift32, lastAt_mapLast] at h2
  · exact Break.after h1 h2
  · intro k hk k' h'
    split at h'
    · rename_i hk'
      rw [Option.some.injEq] at h'
      subst h'
      refine ⟨?_, fun q => ?_⟩
      · rw [Box.ser_length, Box.ser_length]
        show _ + (mapOffsets 4 (shiftBy d) k.body).length = _
        rw [mapOffsets_length (.inl rfl) (h.1 _ (hk.table (φ := fun b => ⟨b.ext, b.fc, mapOffsets 4 (shiftBy d) b.body⟩) hk'))]; rfl
      · unfold leafAt
        rw [if_neg (by rw [hk']; decide), if_neg (by rw [hk']; decide)]
    · simp at h'

theorem kids_break {α β e F0 m p K} {fc : Fourcc} {ser : α → Bytes} {g : Nat → Box → α → β} {up : α → α} {act : β → W Unit}
    {ks : List (Kid α)} {x : α} (hm : m ≤ p) (hx : lastKid ks = some x)
    (h : ∀ q (b : Box), m ≤ q → b.body = ser x → Break e F0 m q (act (g q b x)) b.ser (⟨b.ext, b.fc, ser (up x)⟩ : Box).ser K) :
    Break e F0 m p (wOpt act (lastAt (Kid.box fc ser) (kidAt (Kid.box fc ser) g) p ks)) (serL (Kid.box fc ser) ks)
      (serL (Kid.box fc ser) (mapLast (Kid.mapNode up) ks)) K := by
  obtain ⟨A, k, B, rfl, hk, hB⟩ := getLast_sel hx
  cases k with
  | raw b => cases hk
  | node ext a =>
    injection hk with hk
    subst hk
    have hB' : ∀ k ∈ B, ∃ b, k = .raw b := by
      intro k hk
      cases k with
      | raw b => exact ⟨b, rfl⟩
      | node ext a => exact absurd (hB _ hk) (by simp [Kid.sel])
    rw [lastAt_split (b := g (p + (serL (Kid.box fc ser) A).length) ⟨ext, fc, ser a⟩ a) rfl
      (fun k hk q => by obtain ⟨b, rfl⟩ := hB' k hk; rfl),
      mapLast_split (f := Kid.mapNode up) (k' := .node ext (up a)) rfl (fun k hk => by obtain ⟨b, rfl⟩ := hB' k hk; rfl)]
    have := Break.frame (p := p) (serL (Kid.box fc ser) A) (serL (Kid.box fc ser) B)
      (h (p + (serL (Kid.box fc ser) A).length) ⟨ext, fc, ser a⟩ (by omega) rfl)
    rw [serL_append, serL_append, serL_cons, serL_cons, ← List.append_assoc, ← List.append_assoc]
    exact this

theorem trak_break {e F0 m q K} {b : Box} {d : Int} {t : Spec.Trak} {s : Stbl} {g : Stbl → Stbl} (hm : m ≤ q) (hb : b.body = t.ser)
    (hs : t.stbl = some s)
    (h : ∀ q (b : Box), m ≤ q → b.body = s.ser →
      Break e F0 m q (patchStbl d (stblB q b s)) b.ser (⟨b.ext, b.fc, (g s).ser⟩ : Box).ser K) :
    Break e F0 m q (wOpt (wOpt (wOpt (patchStbl d))) (trakB q b t)) b.ser (⟨b.ext, b.fc, (t.mapStbl g).ser⟩ : Box).ser K := by
  have hpos := b.headLen_pos
  unfold Spec.Trak.stbl at hs
  cases h1 : lastKid t with
  | none => rw [h1] at hs; cases hs
  | some md =>
    rw [h1] at hs
    have hs : (lastKid md).bind lastKid = some s := hs
    cases h2 : lastKid md with
    | none => rw [h2] at hs; cases hs
    | some mi =>
      rw [h2] at hs
      have hs : lastKid mi = some s := hs
      refine Break.body ?_ rfl rfl
      rw [hb]
      refine kids_break (by omega) h1 fun q b hq hb => ?_
      have hpos := b.headLen_pos
      refine Break.body ?_ rfl rfl
      rw [hb]
      refine kids_break (by omega) h2 fun q b hq hb => ?_
      have hpos := b.headLen_pos
      refine Break.body ?_ rfl rfl
      rw [hb]
      exact kids_break (by omega) hs fun q b hq hb => h q b hq hb

theorem allAt_append {κ β} (box : κ → Box) (f : Nat → κ → Option β) (p : Nat) (A B : List κ) :
    allAt box f p (A ++ B) = allAt box f p A ++ allAt box f (p + (serL box A).length) B := by
  induction A generalizing p with
  | nil => rfl
  | cons k ks ih =>
    rw [List.cons_append, allAt, ih, allAt, serL_cons, List.length_append, Nat.add_assoc, List.append_assoc]

theorem mapStbl_id (t : Spec.Trak) : t.mapStbl id = t := by
  have h : ∀ {α} (f : α → α), (∀ a, f a = a) → ∀ ks : List (Kid α), mapLast (Kid.mapNode f) ks = ks := by
    intro α f hf ks
    rcases last_split (fun k => Kid.mapNode f k ≠ none) ks with hn | ⟨A, k, B, rfl, hk, hB⟩
    · exact mapLast_none fun k hk => Decidable.not_not.mp (hn k hk)
    · cases k with
      | raw b => exact absurd rfl hk
      | node ext a =>
        rw [mapLast_split (k' := .node ext a) (by rw [Kid.mapNode, hf]) (fun x hx => Decidable.not_not.mp (hB x hx))]
  exact h _ (h _ (h _ (fun _ => rfl))) t

/-- The movie atom with a malformed table. -/
theorem moov_break {e F0 m} {d : Int} (hd : -2^62 ≤ d ∧ d < 2^62) {ks ks' : Spec.Moov} {body : Bytes} {p : Nat} (hm : m ≤ p)
    (h : Moov.Stuck d ks ks' body) :
    Break e F0 m p (wAll (patchStbl d) ((allAt MoovKid.box trakAt p ks).filterMap stblOf)) (serL MoovKid.box ks)
      (serL MoovKid.box ks') (TableErr body) := by
  have main : ∀ (A : List MoovKid) ext (t : Spec.Trak) B (g : Stbl → Stbl) s, Moov.Tables A → t.stbl = some s →
      (∀ q (b : Box), m ≤ q → b.body = s.ser →
        Break e F0 m q (patchStbl d (stblB q b s)) b.ser (⟨b.ext, b.fc, (g s).ser⟩ : Box).ser (TableErr body)) →
      Break e F0 m p (wAll (patchStbl d) ((allAt MoovKid.box trakAt p (A ++ .trak ext t :: B)).filterMap stblOf))
        (serL MoovKid.box (A ++ .trak ext t :: B))
        (serL MoovKid.box (A.map (MoovKid.mapTrak (Spec.Trak.shift d)) ++ .trak ext (t.mapStbl g) :: B)) (TableErr body) := by
    intro A ext t B g s hA hs hg
    have h1 := moov_patch (e := e) (F0 := F0) (m := m) hd A p hm hA
    rw [allAt_append, allAt, List.filterMap_append, List.filterMap_append, serL_append, serL_append, serL_cons, serL_cons]
    have h1' := Patch.frame (p := p) [] ((MoovKid.trak ext t).box.ser ++ serL MoovKid.box B) (by simpa using h1)
    have h2 : Break e F0 m (p + (serL MoovKid.box A).length)
        (wAll (patchStbl d) ((trakAt (p + (serL MoovKid.box A).length) (.trak ext t)).toList.filterMap stblOf))
        (MoovKid.trak ext t).box.ser (MoovKid.trak ext (t.mapStbl g)).box.ser (TableErr body) :=
      Break.congr (fun s => wAll_stblOf _ _ e s)
        (trak_break (b := ⟨ext, cc 't' 'r' 'a' 'k', t.ser⟩) (by omega) rfl hs hg)
    have h2' := Break.frame (p := p) (serL MoovKid.box (A.map (MoovKid.mapTrak (Spec.Trak.shift d)))) (serL MoovKid.box B)
      (by rw [← h1.1]; exact h2)
    simp only [List.nil_append] at h1'
    rw [List.append_assoc] at h2'
    rw [← List.append_assoc] at h1'
    have := Break.wAll_after (by simpa only [List.append_assoc] using h1')
      (Break.wAll_first (l2 := (allAt MoovKid.box trakAt (p + (serL MoovKid.box A).length + (MoovKid.trak ext t).box.ser.length) B).filterMap stblOf)
        h2')
    simpa only [List.append_assoc] using this
  cases h with
  | stco A ext t B s body hk hA hs hst =>
    subst hk
    have := main A ext t B id s hA hs fun q b hq hb => by
      have := stbl_break32 (e := e) (F0 := F0) (m := m) (q := q) (d := d) hb hst
      rwa [show (⟨b.ext, b.fc, (id s).ser⟩ : Box) = b by rw [show (id s).ser = b.body from hb.symm]]
    rwa [mapStbl_id] at this
  | co64 A ext t B s body hk hA hs hst =>
    subst hk
    exact main A ext t B (Stbl.shift32 d) s hA hs fun q b hq hb => stbl_break64 hd hq hb hst


/-- Writing to a file with media data behind the movie atom and a malformed chunk offset table. -/
theorem writeTagTo_stuck {e : Env} {f : File} {X : Bytes} {atoms : List AtomData} (hF : Fit e (X ++ f.ser)) (hw : f.WF)
    (hs : ∀ a ∈ atoms, Storable a) (ho : (X ++ f.ser).length < 2^62) (hn : ((X ++ f.ser).length : Int) + f.growth atoms < 2^62)
    (hmb : f.MediaBehind) {m' : Spec.Moov} {body : Bytes} (h : Moov.Stuck (f.growth atoms) f.moov m' body) :
    m'.ser.length = f.moov.ser.length ∧
    ∃ k s, TableErr body k ∧ writeTagTo e (X ++ f.ser) X.length atoms = (.err k, s) ∧ s.file = X ++ ({ f with moov := m' } : File).ser ∧
      (∀ op ∈ s.trace, f.moovPos X.length ≤ op.lo) ∧ s.trace.foldl Op.apply (X ++ f.ser) = s.file := by
  have hmser : f.moovBox.body = serL MoovKid.box f.moov := rfl
  generalize hT : serL id f.post = T
  have hT8 : 8 ≤ T.length := by
    obtain ⟨b, hb, -⟩ := hmb
    obtain ⟨A, B, hAB⟩ := List.append_of_mem hb
    rw [← hT, hAB, serL_append, serL_cons, List.length_append, List.length_append]
    have := b.headLen_pos
    have h8 : 8 ≤ b.headLen := by unfold Box.headLen; split <;> omega
    have := b.ser_length
    simp only [id]
    omega
  generalize hP : X ++ f.ftypBox.ser ++ serL id f.pre = P
  have hPl : f.moovPos X.length = P.length := by rw [← hP]; simp only [List.length_append]; rfl
  have hFser : X ++ f.ser = P ++ f.moovBox.ser ++ T := by
    rw [← hP, ← hT]; simp only [File.ser, List.append_assoc]
  have hfind := findTop_at hF hw rfl
  generalize hFF : X ++ f.ser = F at *
  have ho' := ho
  rw [hFser] at ho'
  simp only [List.length_append, Box.ser_length, hmser] at ho'
  obtain ⟨pl⟩ := exists_place (e := e) (q := f.moovPos X.length) (b := f.moovBox) (m := f.moov) hs hmser
    (by rw [hPl, Box.ser_length, hmser]; omega) (by
      rw [hFser] at hn
      unfold File.growth at hn
      have h1 : (f.moov.put id atoms).ser.length = (serL MoovKid.box (f.moov.put id atoms)).length := rfl
      have h2 : f.moov.ser.length = (serL MoovKid.box f.moov).length := rfl
      rw [h1, h2] at hn
      simp only [List.length_append, Box.ser_length, hmser] at hn
      omega) hw.2.2.1
  have hsl : (serL MoovKid.box f.moov).length = (serL MoovKid.box pl.before).length + pl.inner.old.length + pl.old.length + pl.rest.length := by
    rw [pl.ser]; simp only [List.length_append]
  have hil := Heads.length pl.ok
  have hpl' : (serL MoovKid.box (f.moov.put id atoms)).length = (serL MoovKid.box pl.before).length + pl.inner.old.length + pl.new.length + pl.rest.length := by
    rw [pl.put id]; simp only [List.length_append]; rw [mapTrak_id, hil]
  have hgrow : f.growth atoms = (pl.new.length : Int) - pl.old.length := by
    have h1 : (f.moov.put id atoms).ser.length = (serL MoovKid.box (f.moov.put id atoms)).length := rfl
    have h2 : f.moov.ser.length = (serL MoovKid.box f.moov).length := rfl
    rw [File.growth, h1, h2]; omega
  have hst := pl.start
  have hmv := pl.moved
  have hdf := pl.diff
  have hFl : F.length = P.length + (f.moovBox.headLen + (serL MoovKid.box f.moov).length) + T.length := by
    rw [hFser]; simp only [List.length_append, Box.ser_length, hmser]
  obtain ⟨c0, hprep⟩ := preparePhase_of (atoms := atoms) hF hfind pl.plans
    (by omega)
  have h0 : Sees F (f.moovPos X.length) { file := F, cur := e.rcur 0 }
      (P ++ f.moovBox.head ++ serL MoovKid.box f.moov ++ T) (e.rcur 0) := by
    refine ⟨?_, rfl, ?_, rfl⟩
    · rw [← show F = P ++ f.moovBox.head ++ serL MoovKid.box f.moov ++ T by
        rw [hFser, Box.ser, hmser]; simp only [List.append_assoc]]
      rfl
    · intro op hop; exact absurd hop (by simp [WSt.flushBuf, WSt.sysWrite])
  have hgt : f.mdatPos X.length > (moovB (f.moovPos X.length) f.moovBox f.moov).bounds.pos := (mdatPos_gt f X.length).mpr hmb
  have hbr := moov_break (e := e) (F0 := F) (m := f.moovPos X.length) (d := f.growth atoms)
    (p := f.moovPos X.length + f.moovBox.headLen) (by omega) (by omega) h
  have hml : m'.ser.length = f.moov.ser.length := hbr.len.symm
  refine ⟨hml, ?_⟩
  obtain ⟨k, s1, c1, hk, g1, k1, b1⟩ := hbr.run _ (P ++ f.moovBox.head) T (e.rcur 0)
    (by rw [hPl, List.length_append, Box.head_length])
    (by simp only [List.length_append, Box.head_length]; omega)
    (by have := hF.pos; simp only [List.length_append, Box.head_length]; omega)
    hT8 rfl h0
  refine ⟨k, s1.flushBuf, hk, ?_, ?_, k1.low, k1.flush_replay⟩
  · rw [writeTagTo, hprep]
    simp only []
    have g1' : wAll (patchStbl (f.growth atoms))
        (List.filterMap stblOf (moovB (f.moovPos X.length) f.moovBox f.moov).trak) e { file := F, cur := e.rcur 0 } = (.err k, s1) := g1
    rw [writePhase, stblAtoms_eq, hdf, ← hgrow, if_pos hgt, W.bind_err (k := k) (s' := s1) g1']
  · rw [k1.file]
    have hbh : ({ f with moov := m' } : File).moovBox.head = f.moovBox.head := by
      unfold Box.head
      show (if f.moovExt = true then _ else _) = (if f.moovExt = true then _ else _)
      simp only [File.moovBox, hml]
    have hbs : ({ f with moov := m' } : File).moovBox.ser = f.moovBox.head ++ serL MoovKid.box m' := by
      rw [Box.ser, hbh]; rfl
    rw [File.ser, hbs, ← hP, ← hT]
    simp only [List.append_assoc]
    rfl


/-! ### The file after the failure -/

theorem lastKid_split {α} {ks : List (Kid α)} {x : α} (hx : lastKid ks = some x) (up : α → α) :
    ∃ A ext B, ks = A ++ .node ext x :: B ∧ mapLast (Kid.mapNode up) ks = A ++ .node ext (up x) :: B := by
  obtain ⟨A, k, B, rfl, hk, hB⟩ := getLast_sel hx
  cases k with
  | raw b => cases hk
  | node ext a =>
    injection hk with hk
    subst hk
    refine ⟨A, ext, B, rfl, mapLast_split (f := Kid.mapNode up) (k' := .node ext (up a)) rfl fun k hk => ?_⟩
    have := hB k hk
    cases k with
    | raw b => rfl
    | node ext a => cases this

theorem lastKid_WF {α} {ks : List (Kid α)} {x : α} {fc : Fourcc} {ser : α → Bytes} {P : α → Prop} {up : α → α}
    (hx : lastKid ks = some x) (hl : (ser (up x)).length = (ser x).length) (hP : P x → P (up x)) :
    (serL (Kid.box fc ser) (mapLast (Kid.mapNode up) ks)).length = (serL (Kid.box fc ser) ks).length ∧
    ((∀ k ∈ ks, Kid.WF fc ser P k) → ∀ k ∈ mapLast (Kid.mapNode up) ks, Kid.WF fc ser P k) := by
  obtain ⟨A, ext, B, rfl, h⟩ := lastKid_split hx up
  rw [h]
  refine ⟨?_, fun hw k hk => ?_⟩
  · rw [serL_append, serL_append, serL_cons, serL_cons]
    simp only [List.length_append, Kid.box, Box.ser_length, Box.headLen, hl]
  · rcases List.mem_append.mp hk with hk | hk
    · exact hw k (by simp [hk])
    · rcases List.mem_cons.mp hk with rfl | hk
      · obtain ⟨h1, h2⟩ := hw (.node ext x) (by simp)
        refine ⟨fun he => ?_, hP h2⟩
        show (ser (up x)).length + 8 < _
        rw [hl]
        exact h1 he
      · exact hw k (by simp [hk])

theorem mapStbl_WF {t : Spec.Trak} {s : Stbl} {g : Stbl → Stbl} (hs : t.stbl = some s) (hl : (g s).ser.length = s.ser.length)
    (hw : s.WF → (g s).WF) : (t.mapStbl g).ser.length = t.ser.length ∧ (t.WF → (t.mapStbl g).WF) := by
  unfold Spec.Trak.stbl at hs
  cases h1 : lastKid t with
  | none => rw [h1] at hs; cases hs
  | some md =>
    rw [h1] at hs
    have hs : (lastKid md).bind lastKid = some s := hs
    cases h2 : lastKid md with
    | none => rw [h2] at hs; cases hs
    | some mi =>
      rw [h2] at hs
      have hs : lastKid mi = some s := hs
      have i1 := lastKid_WF (fc := cc 's' 't' 'b' 'l') (ser := Stbl.ser) (P := Stbl.WF) hs hl hw
      have i2 := lastKid_WF (fc := cc 'm' 'i' 'n' 'f') (ser := Minf.ser) (P := Minf.WF) h2 i1.1 i1.2
      exact lastKid_WF (fc := cc 'm' 'd' 'i' 'a') (ser := Mdia.ser) (P := Mdia.WF) h1 i2.1 i2.2

theorem mapStbl_audio {g : Stbl → Stbl} (hg : ∀ s r, StblAudio s r → StblAudio (g s) r) {t : Spec.Trak} {r} (h : TrakAudio t r) :
    TrakAudio (t.mapStbl g) r := by
  obtain ⟨q, h1, h2⟩ := h
  refine ⟨q, LastOf_mapLast mapNode_none mapNode_some (fun _ _ h => ?_) h1, h2⟩
  obtain ⟨q, h1, h2⟩ := h
  refine ⟨q, LastOf_mapLast mapNode_none mapNode_some (fun _ _ h => ?_) h1, h2⟩
  obtain ⟨q, h1, h2⟩ := h
  exact ⟨q, LastOf_mapLast mapNode_none mapNode_some (fun _ _ h => hg _ _ h) h1, h2⟩

theorem shift32_audio {d : Int} {s : Stbl} {r} (h : StblAudio s r) : StblAudio (s.shift32 d) r := by
  obtain ⟨q, h1, h2⟩ := h
  refine ⟨q, LastOf_congr ?_ h1, h2⟩
  rw [Stbl.shift32, box_sel_mapTable (by decide)]

theorem shift32_WF {d : Int} {s : Stbl} (h : ∀ body, (s.filterMap (Box.sel (cc 's' 't' 'c' 'o'))).getLast? = some body → TableWF 4 body) :
    (s.shift32 d).ser.length = s.ser.length ∧ (s.WF → (s.shift32 d).WF) := by
  refine ⟨?_, fun hw => table_all (P := Box.Fits) (φ := mapOffsets 4 (shiftBy d)) hw
    fun b hb hl => fits_mapOffsets (.inl rfl) (h _ hl) (hw b hb)⟩
  refine mapLast_length (box := id) s fun k hk k' hk' => ?_
  split at hk'
  · rename_i hfc
    injection hk' with hk'
    subst hk'
    exact table_length (.inl rfl) (h _ (hk.table (φ := fun b => ⟨b.ext, b.fc, mapOffsets 4 (shiftBy d) b.body⟩) hfc))
  · cases hk'

theorem stuck_traks {d : Int} {m m' : Spec.Moov} {body : Bytes} (h : Moov.Stuck d m m' body) :
    ∃ A ext t B g, m = A ++ .trak ext t :: B ∧ m' = A.map (MoovKid.mapTrak (Spec.Trak.shift d)) ++ .trak ext (t.mapStbl g) :: B ∧
      Moov.Tables A ∧ (t.mapStbl g).ser.length = t.ser.length ∧ (t.WF → (t.mapStbl g).WF) ∧
      (∀ s r, StblAudio s r → StblAudio (g s) r) := by
  cases h with
  | stco A ext t B s body hk hA hs hst =>
    refine ⟨A, ext, t, B, id, hk, by rw [mapStbl_id], hA, by rw [mapStbl_id], fun h => by rw [mapStbl_id]; exact h, fun _ _ h => h⟩
  | co64 A ext t B s body hk hA hs hst =>
    have h1 := shift32_WF (d := d) hst.1
    have h2 := mapStbl_WF (g := Stbl.shift32 d) hs h1.1 h1.2
    exact ⟨A, ext, t, B, Stbl.shift32 d, hk, rfl, hA, h2.1, h2.2, fun _ _ h => shift32_audio h⟩

theorem stuck_WF {d : Int} {m m' : Spec.Moov} {body : Bytes} (h : Moov.Stuck d m m' body) (hw : m.WF) : m'.WF := by
  obtain ⟨A, ext, t, B, g, rfl, rfl, hA, hl, hg, -⟩ := stuck_traks h
  intro k hk
  rcases List.mem_append.mp hk with hk | hk
  · exact mapTrak_WF (fun k hk => hw k (by simp [hk])) (fun ext t ht hwt =>
      ⟨trak_shift_WF (hA ext t ht) hwt, trak_shift_length (hA ext t ht)⟩) k hk
  · rcases List.mem_cons.mp hk with rfl | hk
    · obtain ⟨h1, h2⟩ := hw (.trak ext t) (by simp)
      refine ⟨fun he => ?_, hg h2⟩
      show (t.mapStbl g).ser.length + 8 < _
      rw [hl]
      exact h1 he
    · exact hw k (by simp [hk])

theorem stuck_content {d : Int} {m m' : Spec.Moov} {body : Bytes} (h : Moov.Stuck d m m' body) {dur audio r}
    (hc : MoovContent m dur audio r) : MoovContent m' dur audio r := by
  obtain ⟨A, ext, t, B, g, rfl, rfl, -, -, -, hg⟩ := stuck_traks h
  obtain ⟨h1, ⟨as, h2, ha⟩, q, h3, h4⟩ := hc
  refine ⟨LastOf_congr ?_ h1, ⟨as, ?_, ha⟩, q, LastOf_congr ?_ h3, h4⟩
  · rw [List.filterMap_append, List.filterMap_append, filterMap_mapTrak _ _ (fun _ _ => rfl)]; rfl
  · rw [List.filterMap_append] at h2 ⊢
    obtain ⟨x, y, rfl, hx, hy⟩ := All2_split h2
    rw [trak_mapTrak]
    refine All2_append (All2_mapl (fun _ _ => trakAudio_shift) hx) ?_
    match y, hy with
    | a :: y, hy => exact ⟨mapStbl_audio hg hy.1, hy.2⟩
  · rw [List.filterMap_append, List.filterMap_append, filterMap_mapTrak _ _ (fun _ _ => rfl)]; rfl


/-! ### Malformed or not -/

theorem pieces_lt {w : Nat} : ∀ (n : Nat) (b : Bytes) x, x ∈ pieces w n b → x.length ≤ w := by
  intro n
  induction n with
  | zero => intro b x h; cases h
  | succ n ih =>
    intro b x h
    rw [pieces] at h
    rcases List.mem_cons.mp h with rfl | h
    · rw [List.length_take]; omega
    · exact ih _ x h

theorem offsets4_lt (body : Bytes) : ∀ o ∈ offsets 4 body, o < 2^62 := by
  intro o ho
  obtain ⟨x, hx, rfl⟩ := List.mem_map.mp ho
  have h1 := pieces_lt _ _ x hx
  have h2 := beNat_lt x
  rw [num_eq]
  have : 256 ^ x.length ≤ 256 ^ 4 := Nat.pow_le_pow_right (by decide) h1
  omega

theorem be32_num {c : Bytes} (h : c.length = 4) : be32 (num c) = c ∧ num c < 2^32 := by
  have h1 := toBe_beNat c
  have h2 := beNat_lt c
  rw [h] at h1 h2
  rw [num_eq]
  exact ⟨by rw [← toBe4]; exact h1, by omega⟩

theorem tableWF_iff {w : Nat} {body : Bytes} (ho : ∀ o ∈ offsets w body, o < 2^62) : TableWF w body ↔ ¬ TableBad w body := by
  constructor
  · rintro ⟨flags, n, hf, hn, h8, hl, -⟩ hb
    have h8' := h8
    rcases hb with hb | hb
    · have := congrArg List.head? h8
      rw [List.head?_take, if_neg (by decide)] at this
      exact hb this
    · have := congrArg (List.drop 4) h8
      rw [List.drop_take] at this
      rw [show (0 :: flags ++ be32 n).drop 4 = be32 n from List.drop_left' (by simp [hf])] at this
      rw [show (8 - 4 : Nat) = 4 from rfl] at this
      rw [this, num_eq, beNat_be32 n hn] at hb
      exact hb hl
  · intro hb
    unfold TableBad at hb
    rw [not_or, Decidable.not_not, Decidable.not_not] at hb
    obtain ⟨h1, h2⟩ := hb
    obtain ⟨v, fl, c, hR, hfl, hc⟩ := eight_split (body.take 8) (by rw [List.length_take]; omega)
    have hv : v = 0 := by
      have := congrArg List.head? hR
      rw [List.head?_take, if_neg (by decide), h1] at this
      exact (Option.some.inj this).symm
    have hc' : (body.drop 4).take 4 = c := by
      have := congrArg (List.drop 4) hR
      rw [List.drop_take] at this
      rw [this]
      exact List.drop_left' (by simp [hfl])
    rw [hc'] at h2
    exact ⟨fl, num c, hfl, (be32_num hc).2, by rw [hR, hv, (be32_num hc).1], h2, ho⟩

/-- A sample table is well-formed or stuck. -/
theorem stbl_dec {s : Stbl} (ho : ∀ o ∈ s.chunks64, o < 2^62) (hn : ¬ s.Tables) : (∃ body, s.Stuck32 body) ∨ ∃ body, s.Stuck64 body := by
  by_cases hs : ∀ body, (s.filterMap (Box.sel (cc 's' 't' 'c' 'o'))).getLast? = some body → TableWF 4 body
  · obtain ⟨body, hb⟩ := Classical.not_forall.mp fun hc => hn ⟨hs, hc⟩
    obtain ⟨hb, ht⟩ := Classical.not_imp.mp hb
    refine .inr ⟨body, hs, hb, ?_⟩
    refine Decidable.not_not.mp fun hc => ht ((tableWF_iff fun o h => ho o ?_).mpr hc)
    rw [Stbl.chunks64, hb]
    exact h
  · obtain ⟨body, hb⟩ := Classical.not_forall.mp hs
    obtain ⟨hb, ht⟩ := Classical.not_imp.mp hb
    exact .inl ⟨body, hb, Decidable.not_not.mp fun hc => ht ((tableWF_iff (offsets4_lt _)).mpr hc)⟩

theorem kids_dec {α} {T : α → Prop} {c : α → List Nat} {ks : List (Kid α)} (hs : ∀ o ∈ ((ks.filterMap Kid.sel).getLast?.map c).getD [], o < 2^62)
    (hn : ¬ ∀ a, (ks.filterMap Kid.sel).getLast? = some a → T a) : ∃ a, lastKid ks = some a ∧ (∀ o ∈ c a, o < 2^62) ∧ ¬ T a := by
  obtain ⟨a, ha⟩ := Classical.not_forall.mp hn
  obtain ⟨ha, ht⟩ := Classical.not_imp.mp ha
  rw [ha] at hs
  exact ⟨a, ha, hs, ht⟩

theorem trak_dec {t : Spec.Trak} (h : ∀ o ∈ t.chunks64, o < 2^62) (hn : ¬ t.Tables) :
    ∃ s, t.stbl = some s ∧ ((∃ body, s.Stuck32 body) ∨ ∃ body, s.Stuck64 body) := by
  obtain ⟨md, h1, g1, n1⟩ := kids_dec h hn
  obtain ⟨mi, h2, g2, n2⟩ := kids_dec g1 n1
  obtain ⟨s, h3, g3, n3⟩ := kids_dec g2 n2
  refine ⟨s, ?_, stbl_dec g3 n3⟩
  unfold Spec.Trak.stbl
  rw [h1]
  show (lastKid md).bind lastKid = _
  rw [h2]
  exact h3

/-- The tables that count are well-formed, or there is a first track with a malformed one. -/
theorem moov_dec {m : Spec.Moov} (h : m.Low) (hn : ¬ m.Tables) (d : Int) : ∃ m' body, Moov.Stuck d m m' body := by
  have aux : ∀ (B A : List MoovKid), m = A ++ B → Moov.Tables A → ∃ A' ext t B', m = A' ++ .trak ext t :: B' ∧ Moov.Tables A' ∧ ¬ t.Tables := by
    intro B
    induction B with
    | nil => intro A he hA; rw [List.append_nil] at he; exact absurd (he ▸ hA) hn
    | cons k B ih =>
      intro A he hA
      have step : (∀ ext t, k = .trak ext t → t.Tables) → Moov.Tables (A ++ [k]) := by
        intro hk ext t ht
        rcases List.mem_append.mp ht with ht | ht
        · exact hA ext t ht
        · exact hk ext t (List.mem_singleton.mp ht).symm
      by_cases hk : ∀ ext t, k = .trak ext t → t.Tables
      · exact ih (A ++ [k]) (by rw [he]; simp) (step hk)
      · cases k with
        | trak ext t => exact ⟨A, ext, t, B, he, hA, fun ht => hk fun ext' t' h => by cases h; exact ht⟩
        | udta ext u => exact absurd (fun _ _ h => by cases h) hk
        | raw b => exact absurd (fun _ _ h => by cases h) hk
  obtain ⟨A, ext, t, B, he, hA, ht⟩ := aux m [] rfl (fun _ _ h => by cases h)
  obtain ⟨s, hs, ⟨body, hb⟩ | ⟨body, hb⟩⟩ := trak_dec (h ext t (by rw [he]; simp)) ht
  · exact ⟨_, body, .stco A ext t B s body he hA hs hb⟩
  · exact ⟨_, body, .co64 A ext t B s body he hA hs hb⟩

end Mp4
