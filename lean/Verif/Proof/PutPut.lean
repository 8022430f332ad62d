import Verif.Proof.Put
/-
Writing twice; well-formedness of the result; chunk offsets after writing.
-/
namespace Mp4
open Spec

theorem mapLast_none {κ} {f : κ → Option κ} {ks : List κ} (h : ∀ k ∈ ks, f k = none) : mapLast f ks = ks := by
  rw [mapLast, updLast_none (fun k hk => by rw [h k hk]; rfl)]; rfl

theorem mapLast_split {κ} {f : κ → Option κ} {A B : List κ} {k k' : κ} (hk : f k = some k') (hB : ∀ x ∈ B, f x = none) :
    mapLast f (A ++ k :: B) = A ++ k' :: B := by
  rw [mapLast, updLast_split (ys := [k']) (by rw [hk]; rfl) (fun x hx => by rw [hB x hx]; rfl)]; simp

theorem mapLast_comp {κ} {f1 f2 f3 : κ → Option κ} {ks : List κ} (h0 : ∀ k ∈ ks, f1 k = none → f2 k = none ∧ f3 k = none)
    (h1 : ∀ k, IsLast f1 ks k → ∀ k1, f1 k = some k1 → ∃ k2, f2 k1 = some k2 ∧ f3 k = some k2) :
    mapLast f2 (mapLast f1 ks) = mapLast f3 ks := by
  rcases last_split (fun k => f1 k ≠ none) ks with hn | ⟨A, k, B, rfl, hk, hB⟩
  · have h := fun k hk => Decidable.not_not.mp (hn k hk)
    rw [mapLast_none h, mapLast_none (fun k hk => (h0 k hk (h k hk)).1), mapLast_none (fun k hk => (h0 k hk (h k hk)).2)]
  · have h := fun k hk => Decidable.not_not.mp (hB k hk)
    obtain ⟨k1, hk1⟩ := Option.ne_none_iff_exists'.mp hk
    obtain ⟨k2, hk2, hk3⟩ := h1 k ⟨A, B, rfl, h⟩ k1 hk1
    rw [mapLast_split hk1 h, mapLast_split hk2 (fun x hx => (h0 x (by simp [hx]) (h x hx)).1),
      mapLast_split hk3 (fun x hx => (h0 x (by simp [hx]) (h x hx)).2)]

theorem mapLast_congr {κ} {f f' : κ → Option κ} {ks : List κ} (h : ∀ k ∈ ks, f k = f' k) : mapLast f ks = mapLast f' ks := by
  induction ks with
  | nil => rfl
  | cons k ks ih =>
    have hex : (∃ x ∈ ks, f x ≠ none) ↔ ∃ x ∈ ks, f' x ≠ none := by
      constructor <;> rintro ⟨x, hx, hf⟩ <;> refine ⟨x, hx, ?_⟩
      · rw [← h x (by simp [hx])]; exact hf
      · rw [h x (by simp [hx])]; exact hf
    rw [mapLast_cons, mapLast_cons, ih (fun x hx => h x (by simp [hx])), h k (by simp)]
    simp only [hex]

theorem mapLast_ex {κ} {f g : κ → Option κ} (h : ∀ k k', g k = some k' → f k = none ∧ f k' = none) (ks : List κ) :
    (∃ x ∈ mapLast g ks, f x ≠ none) ↔ ∃ x ∈ ks, f x ≠ none := by
  rcases last_split (fun k => g k ≠ none) ks with hn | ⟨A, k, B, rfl, hk, hB⟩
  · rw [mapLast_none (fun k hk => Decidable.not_not.mp (hn k hk))]
  · obtain ⟨k', hk'⟩ := Option.ne_none_iff_exists'.mp hk
    rw [mapLast_split hk' (fun k hk => Decidable.not_not.mp (hB k hk))]
    obtain ⟨h1, h2⟩ := h k k' hk'
    constructor
    · rintro ⟨x, hx, hf⟩
      rcases List.mem_append.mp hx with hx | hx
      · exact ⟨x, by simp [hx], hf⟩
      · rcases List.mem_cons.mp hx with rfl | hx
        · exact absurd h2 hf
        · exact ⟨x, by simp [hx], hf⟩
    · rintro ⟨x, hx, hf⟩
      rcases List.mem_append.mp hx with hx | hx
      · exact ⟨x, by simp [hx], hf⟩
      · rcases List.mem_cons.mp hx with rfl | hx
        · exact absurd h1 hf
        · exact ⟨x, by simp [hx], hf⟩

theorem mapLast_comm {κ} {f g : κ → Option κ} (hfg : ∀ k k', f k = some k' → g k = none ∧ g k' = none)
    (hgf : ∀ k k', g k = some k' → f k = none ∧ f k' = none) (ks : List κ) :
    mapLast f (mapLast g ks) = mapLast g (mapLast f ks) := by
  induction ks with
  | nil => rfl
  | cons k ks ih =>
    have e1 := mapLast_ex hgf ks
    have e2 := mapLast_ex hfg ks
    rw [mapLast_cons g, mapLast_cons f]
    by_cases h1 : ∃ x ∈ ks, g x ≠ none <;> by_cases h2 : ∃ x ∈ ks, f x ≠ none
    · rw [if_pos h1, if_pos h2, mapLast_cons, mapLast_cons, if_pos (e1.mpr h2), if_pos (e2.mpr h1), ih]
    · have hn : ∀ x ∈ ks, f x = none := fun x hx => Decidable.byContradiction fun h => h2 ⟨x, hx, h⟩
      rw [if_pos h1, if_neg h2, mapLast_cons, mapLast_cons, if_neg (fun h => h2 (e1.mp h)), if_pos h1]
    · have hn : ∀ x ∈ ks, g x = none := fun x hx => Decidable.byContradiction fun h => h1 ⟨x, hx, h⟩
      rw [if_neg h1, if_pos h2, mapLast_cons, mapLast_cons, if_pos h2, if_neg (fun h => h1 (e2.mp h))]
    · rw [if_neg h1, if_neg h2, mapLast_cons, mapLast_cons, if_neg h1, if_neg h2]
      cases hf : f k with
      | none => cases hg : g k with
        | none => simp [hf, hg]
        | some k' => simp [(hgf k k' hg).2, hg]
      | some k' => simp [(hfg k k' hf).2, (hfg k k' hf).1, hf]

/-! ### Chunk offset tables -/

theorem toBe_mod (k n : Nat) : toBe k (n % 256 ^ k) = toBe k n := by
  have h := toBe_beNat (toBe k n)
  rw [toBe_length, beNat_toBe] at h
  exact h

theorem pieces_flatMap {w : Nat} : ∀ (ps : List Bytes), (∀ p ∈ ps, p.length = w) → pieces w ps.length ps.flatten = ps := by
  intro ps
  induction ps with
  | nil => intro _; rfl
  | cons p ps ih =>
    intro h
    have hp := h p (by simp)
    rw [List.length_cons, pieces, List.flatten_cons, List.take_left' hp, List.drop_left' hp, ih (fun q hq => h q (by simp [hq]))]

theorem flatten_pieces {w : Nat} : ∀ (n : Nat) (b : Bytes), b.length = w * n → (pieces w n b).flatten = b := by
  intro n
  induction n with
  | zero => intro b h; rw [List.eq_nil_of_length_eq_zero (l := b) (by simpa using h)]; rfl
  | succ n ih =>
    intro b h
    rw [pieces, List.flatten_cons, ih (b.drop w) (by rw [List.length_drop, h, Nat.mul_succ]; omega), List.take_append_drop]

theorem pieces_len {w : Nat} : ∀ (n : Nat) (b : Bytes), b.length = w * n → ∀ p ∈ pieces w n b, p.length = w := by
  intro n
  induction n with
  | zero => intro b _ p hp; exact absurd hp (by simp [pieces])
  | succ n ih =>
    intro b h p hp
    rw [Nat.mul_succ] at h
    rcases List.mem_cons.mp hp with rfl | hp
    · rw [List.length_take, h]; omega
    · exact ih (b.drop w) (by rw [List.length_drop, h]; omega) p hp

theorem offsets_length {w : Nat} {body : Bytes} : (offsets w body).length = (body.length - 8) / w := by
  rw [offsets, List.length_map, pieces_length]

/-- The offsets of a changed table. -/
theorem offsets_mapOffsets {w : Nat} (hw : w = 4 ∨ w = 8) {body : Bytes} (h : TableWF w body) (φ : Nat → Nat) :
    offsets w (mapOffsets w φ body) = (offsets w body).map fun o => φ o % 256 ^ w := by
  have hl := mapOffsets_length hw h φ
  obtain ⟨flags, n, hf, hn, h8, hbl, ho⟩ := h
  have h8l : (body.take 8).length = 8 := by rw [h8]; simp [hf, be32_length]
  rw [offsets, hl, mapOffsets, List.drop_left' h8l]
  have hol : ((offsets w body).map fun o => encOffset w (φ o)).length = (body.length - 8) / w := by
    rw [List.length_map, offsets_length]
  rw [List.flatMap_def, ← hol, pieces_flatMap, List.map_map]
  · apply List.map_congr_left
    intro o _
    show num (encOffset w (φ o)) = _
    rw [encOffset_eq hw, num_eq, beNat_toBe]
  · intro p hp
    obtain ⟨o, _, rfl⟩ := List.mem_map.mp hp
    exact encOffset_length hw _

theorem mapOffsets_mapOffsets {w : Nat} (hw : w = 4 ∨ w = 8) {body : Bytes} (h : TableWF w body) (φ ψ : Nat → Nat) :
    mapOffsets w ψ (mapOffsets w φ body) = mapOffsets w (fun o => ψ (φ o % 256 ^ w)) body := by
  have h8l : (body.take 8).length = 8 := by
    obtain ⟨flags, n, hf, hn, h8, hbl, ho⟩ := h
    rw [h8]; simp [hf, be32_length]
  rw [mapOffsets, offsets_mapOffsets hw h, List.flatMap_map]
  congr 1
  rw [mapOffsets, List.take_left' h8l]

theorem mapOffsets_congr {w : Nat} {body : Bytes} {φ ψ : Nat → Nat} (h : ∀ o ∈ offsets w body, encOffset w (φ o) = encOffset w (ψ o)) :
    mapOffsets w φ body = mapOffsets w ψ body := by
  unfold mapOffsets
  congr 1
  rw [List.flatMap_def, List.flatMap_def]
  congr 1
  exact List.map_congr_left h

theorem mapOffsets_id {w : Nat} (hw : w = 4 ∨ w = 8) {body : Bytes} (h : TableWF w body) {φ : Nat → Nat} (hφ : ∀ o ∈ offsets w body, φ o = o) :
    mapOffsets w φ body = body := by
  rw [mapOffsets_congr (ψ := id) (fun o ho => by rw [hφ o ho]; rfl)]
  obtain ⟨flags, n, hf, hn, h8, hbl, ho⟩ := h
  rw [mapOffsets]
  have hd : (body.drop 8).length = w * n := by rw [List.length_drop, hbl]; omega
  have : (offsets w body).flatMap (fun o => encOffset w (id o)) = body.drop 8 := by
    rw [offsets, table_count (by omega) hbl, List.flatMap_def, List.map_map]
    rw [show List.map ((fun o => encOffset w (id o)) ∘ num) (pieces w n (body.drop 8)) = pieces w n (body.drop 8) from ?_]
    · exact flatten_pieces n _ hd
    · conv => rhs; rw [← List.map_id (pieces w n (body.drop 8))]
      apply List.map_congr_left
      intro p hp
      have hpl := pieces_len n _ hd p hp
      show encOffset w (num p) = p
      rw [encOffset_eq hw, num_eq, ← hpl, toBe_beNat]
  rw [this, List.take_append_drop]

theorem shiftBy_zero {o : Nat} (h : o < 2^62) : shiftBy 0 o = o := by unfold shiftBy; omega

theorem shiftBy_comp {w : Nat} (hw : w = 4 ∨ w = 8) (d1 d2 : Int) (o : Nat) :
    shiftBy d2 (shiftBy d1 o % 256 ^ w) % 256 ^ w = shiftBy (d1 + d2) o % 256 ^ w := by
  unfold shiftBy
  rcases hw with rfl | rfl
  · rw [show (256 : Nat) ^ 4 = 4294967296 from rfl]; omega
  · rw [show (256 : Nat) ^ 8 = 18446744073709551616 from rfl]; omega

theorem mapOffsets_shift {w : Nat} (hw : w = 4 ∨ w = 8) {body : Bytes} (h : TableWF w body) (d1 d2 : Int) :
    mapOffsets w (shiftBy d2) (mapOffsets w (shiftBy d1) body) = mapOffsets w (shiftBy (d1 + d2)) body := by
  rw [mapOffsets_mapOffsets hw h]
  refine mapOffsets_congr fun o _ => ?_
  rw [encOffset_eq hw, encOffset_eq hw, ← toBe_mod, shiftBy_comp hw, toBe_mod]

theorem table_comm (fc fc' : Fourcc) (hne : fc ≠ fc') (φ ψ : Bytes → Bytes) (k k' : Box)
    (h : (if k.fc = fc then some (⟨k.ext, k.fc, φ k.body⟩ : Box) else none) = some k') :
    (if k.fc = fc' then some (⟨k.ext, k.fc, ψ k.body⟩ : Box) else none) = none ∧
    (if k'.fc = fc' then some (⟨k'.ext, k'.fc, ψ k'.body⟩ : Box) else none) = none := by
  split at h
  · rename_i hk
    injection h with h
    subst h
    have : ¬ k.fc = fc' := by rw [hk]; exact hne
    exact ⟨if_neg this, if_neg this⟩
  · exact absurd h (by simp)

theorem table_comp (fc : Fourcc) {w : Nat} (hw : w = 4 ∨ w = 8) (d1 d2 : Int) {s : List Box}
    (h : ∀ body, (s.filterMap (Box.sel fc)).getLast? = some body → TableWF w body) :
    mapLast (fun b : Box => if b.fc = fc then some ⟨b.ext, b.fc, mapOffsets w (shiftBy d2) b.body⟩ else none)
      (mapLast (fun b : Box => if b.fc = fc then some ⟨b.ext, b.fc, mapOffsets w (shiftBy d1) b.body⟩ else none) s)
    = mapLast (fun b : Box => if b.fc = fc then some ⟨b.ext, b.fc, mapOffsets w (shiftBy (d1 + d2)) b.body⟩ else none) s := by
  refine mapLast_comp (fun k _ h => ?_) (fun k hk k1 h1 => ?_)
  · split at h
    · exact absurd h (by simp)
    · rename_i hk; exact ⟨if_neg hk, if_neg hk⟩
  · split at h1
    · rename_i hfc
      injection h1 with h1
      subst h1
      refine ⟨⟨k.ext, k.fc, mapOffsets w (shiftBy (d1 + d2)) k.body⟩, ?_, if_pos hfc⟩
      rw [if_pos hfc, ← mapOffsets_shift hw (h _ (hk.table (φ := fun b => ⟨b.ext, b.fc, mapOffsets w (shiftBy d1) b.body⟩) hfc))]
    · exact absurd h1 (by simp)

theorem stbl_shift_shift (d1 d2 : Int) {s : Stbl} (h : s.Tables) : (s.shift d1).shift d2 = s.shift (d1 + d2) := by
  unfold Stbl.shift
  rw [mapLast_comm (g := fun b : Box => if b.fc = cc 'c' 'o' '6' '4' then some ⟨b.ext, b.fc, mapOffsets 8 (shiftBy d1) b.body⟩ else none)
    (table_comm _ _ (by decide) _ _) (table_comm _ _ (by decide) _ _), table_comp _ (.inl rfl) d1 d2 h.1,
    table_comp _ (.inr rfl) d1 d2 (by rw [box_sel_mapTable (by decide) s]; exact h.2)]

theorem stbl_shift_zero {s : Stbl} (h : s.Tables) : s.shift 0 = s := by
  have key : ∀ (fc : Fourcc) (w : Nat) (_ : w = 4 ∨ w = 8) (s : List Box), (∀ body, (s.filterMap (Box.sel fc)).getLast? = some body → TableWF w body) →
      mapLast (fun b : Box => if b.fc = fc then some ⟨b.ext, b.fc, mapOffsets w (shiftBy 0) b.body⟩ else none) s = s := by
    intro fc w hw s hs
    rcases last_split (fun b : Box => b.fc = fc) s with hn | ⟨A, k, B, rfl, hk, hB⟩
    · exact mapLast_none fun k hk => if_neg (hn k hk)
    · refine mapLast_split (f := fun b : Box => if b.fc = fc then some ⟨b.ext, b.fc, mapOffsets w (shiftBy 0) b.body⟩ else none)
        ?_ (fun x hx => if_neg (hB x hx))
      have ht := hs k.body (IsLast.table (φ := id) ⟨A, B, rfl, fun x hx => if_neg (hB x hx)⟩ hk)
      rw [if_pos hk, mapOffsets_id hw ht]
      obtain ⟨_, _, _, _, _, _, ho⟩ := ht
      exact fun o h => shiftBy_zero (ho o h)
  rw [Stbl.shift, key _ 4 (.inl rfl) s h.1, key _ 8 (.inr rfl) s h.2]

theorem node_comp {α} {f1 f2 f3 : α → α} {ks : List (Kid α)} (h : ∀ a, (ks.filterMap Kid.sel).getLast? = some a → f2 (f1 a) = f3 a) :
    mapLast (Kid.mapNode f2) (mapLast (Kid.mapNode f1) ks) = mapLast (Kid.mapNode f3) ks := by
  refine mapLast_comp (fun k _ h => ?_) (fun k hk k1 h1 => ?_)
  · cases k with
    | node ext a => exact absurd h (by simp [Kid.mapNode])
    | raw b => exact ⟨rfl, rfl⟩
  · cases k with
    | node ext a =>
      injection h1 with h1
      subst h1
      exact ⟨.node ext (f3 a), by rw [Kid.mapNode, h a hk.kid], rfl⟩
    | raw b => exact absurd h1 (by simp [Kid.mapNode])

theorem node_id {α} {f : α → α} {ks : List (Kid α)} (h : ∀ a, (ks.filterMap Kid.sel).getLast? = some a → f a = a) :
    mapLast (Kid.mapNode f) ks = ks := by
  rcases last_split (fun k : Kid α => Kid.mapNode f k ≠ none) ks with hn | ⟨A, k, B, rfl, hk, hB⟩
  · exact mapLast_none fun k hk => Decidable.not_not.mp (hn k hk)
  · cases k with
    | node ext a =>
      refine mapLast_split ?_ (fun x hx => Decidable.not_not.mp (hB x hx))
      rw [Kid.mapNode, h a (IsLast.kid (f := f) ⟨A, B, rfl, fun x hx => Decidable.not_not.mp (hB x hx)⟩)]
    | raw b => exact absurd rfl hk

theorem trak_shift_shift (d1 d2 : Int) {t : Spec.Trak} (h : t.Tables) : (t.shift d1).shift d2 = t.shift (d1 + d2) :=
  node_comp fun a ha => node_comp fun a' ha' => node_comp fun a'' ha'' => stbl_shift_shift d1 d2 (h a ha a' ha' a'' ha'')

theorem trak_shift_zero {t : Spec.Trak} (h : t.Tables) : t.shift 0 = t :=
  node_id fun a ha => node_id fun a' ha' => node_id fun a'' ha'' => stbl_shift_zero (h a ha a' ha' a'' ha'')

/-! ### Writing twice -/

theorem metaPut_put (m : Meta) (a b : List AtomData) : (m.put a).put b = m.put b := by
  obtain ⟨A, old, B, hk, hp, hB, hcase⟩ := metaPut_cases m a
  obtain ⟨C, hC, hC'⟩ := newKids_split m a
  have hpb : m.put b = ⟨m.flags, A ++ newKids m b ++ B⟩ := by
    rcases hcase with ⟨il, rfl, hil⟩ | ⟨rfl, rfl, hA⟩
    · exact metaPut_split (by simpa using hk) hil hB
    · rw [metaPut_none (by rw [hk]; simpa using hA), hk]; simp
  have hk2 : (m.put a).kids = (A ++ C) ++ ilstBox a :: B := by rw [hp, hC]; simp
  have hh : ∃ x ∈ (m.put a).kids, x.fc = cc 'h' 'd' 'l' 'r' := by
    rw [hk2]
    rcases hC' with ⟨rfl, x, hx, hfc⟩ | ⟨rfl, _⟩
    · refine ⟨x, ?_, hfc⟩
      rw [hk] at hx
      rcases List.mem_append.mp hx with hx | hx
      · rcases List.mem_append.mp hx with hx | hx
        · simp [hx]
        · rcases hcase with ⟨il, rfl, hil⟩ | ⟨rfl, _⟩
          · rw [List.mem_singleton] at hx
            subst hx
            rw [hil] at hfc
            exact absurd hfc (by decide)
          · exact absurd hx (by simp)
      · simp [hx]
    · exact ⟨hdlrBox, by simp, rfl⟩
  rw [metaPut_split hk2 rfl hB, hpb]
  have hf : (m.put a).flags = m.flags := by rw [hp]
  rw [hf]
  congr 1
  rw [newKids, if_pos hh]
  obtain ⟨C2, hC2, hC2'⟩ := newKids_split m b
  have : C2 = C := by
    rcases hC' with ⟨rfl, h1⟩ | ⟨rfl, h1⟩ <;> rcases hC2' with ⟨rfl, h2⟩ | ⟨rfl, h2⟩
    · rfl
    · exact absurd h1 h2
    · exact absurd h2 h1
    · rfl
  rw [hC2, this]; simp

theorem newMeta_put (a b : List AtomData) : (newMeta a).put b = newMeta b := by
  rw [metaPut_split (m := newMeta a) (A := [hdlrBox]) (k := ilstBox a) (B := []) rfl rfl (by simp), newKids,
    if_pos ⟨hdlrBox, by simp [newMeta], rfl⟩]
  rfl

theorem metaKid_put {a b : List AtomData} (h : SameForm a b) : Kid.node (decide (2^32 ≤ (newMeta a).ser.length + 8)) ((newMeta a).put b) = metaKid (newMeta b) := by
  rw [newMeta_put, metaKid, decide_eq_decide.mpr h.1]

theorem udtaPut_put {u : Udta} {a b : List AtomData} (h : SameForm a b) : (u.put a).put b = u.put b := by
  rcases last_split isMeta u with hn | ⟨A, k, B, rfl, hk, hB⟩
  · rw [udtaPut_none hn, udtaPut_none hn]
    show Udta.put b (u ++ Kid.node _ (newMeta a) :: []) = _
    rw [udtaPut_split (by simp), metaKid_put h]
  · cases k with
    | raw b => exact absurd hk id
    | node ext m => rw [udtaPut_split hB, udtaPut_split hB, udtaPut_split hB, metaPut_put]

theorem newUdta_put {a b : List AtomData} (h : SameForm a b) : (newUdta a).put b = newUdta b := by
  show Udta.put b ([] ++ Kid.node _ (newMeta a) :: []) = _
  rw [udtaPut_split (by simp), metaKid_put h]; rfl

theorem mapTrak_mapTrak (g1 g2 : Spec.Trak → Spec.Trak) (ks : List MoovKid) :
    (ks.map (MoovKid.mapTrak g1)).map (MoovKid.mapTrak g2) = ks.map (MoovKid.mapTrak (g2 ∘ g1)) := by
  rw [List.map_map]
  congr 1
  funext k
  cases k <;> rfl

theorem mapTrak_congr {g g' : Spec.Trak → Spec.Trak} {ks : List MoovKid} (h : ∀ ext t, MoovKid.trak ext t ∈ ks → g t = g' t) :
    ks.map (MoovKid.mapTrak g) = ks.map (MoovKid.mapTrak g') := by
  apply List.map_congr_left
  intro k hk
  cases k with
  | trak ext t => rw [MoovKid.mapTrak, MoovKid.mapTrak, h ext t hk]
  | _ => rfl

theorem isUdta_mapTrak {g : Spec.Trak → Spec.Trak} {k : MoovKid} : isUdta (k.mapTrak g) ↔ isUdta k := by cases k <;> exact Iff.rfl

theorem moovPut_put {m : Spec.Moov} {g1 g2 : Spec.Trak → Spec.Trak} {a b : List AtomData} (h : SameForm a b) :
    (m.put g1 a).put g2 b = m.put (g2 ∘ g1) b := by
  rcases moovPut_cases g1 m a with ⟨hn, hp⟩ | ⟨A, ext, u, B, rfl, hB, hp⟩
  · rw [hp, put_none hn]
    show Moov.put g2 b (List.map (MoovKid.mapTrak g1) m ++ MoovKid.udta _ (newUdta a) :: []) = _
    rw [put_split (by simp), mapTrak_mapTrak, newUdta_put h]
    rw [udtaKid, decide_eq_decide.mpr h.2]
  · rw [hp, put_split hB, put_split hB, mapTrak_mapTrak, udtaPut_put h]

theorem moovPut_congr {m : Spec.Moov} {g g' : Spec.Trak → Spec.Trak} {a : List AtomData}
    (h : ∀ ext t, MoovKid.trak ext t ∈ m → g t = g' t) : m.put g a = m.put g' a := by
  rcases moovPut_cases g m a with ⟨hn, hp⟩ | ⟨A, ext, u, B, rfl, hB, hp⟩
  · rw [put_none hn, put_none hn, mapTrak_congr h]
  · rw [put_split hB, put_split hB, mapTrak_congr (fun ext t ht => h ext t (by simp [ht]))]

theorem put_length {m : Spec.Moov} {g : Spec.Trak → Spec.Trak} {a : List AtomData}
    (h : ∀ ext t, MoovKid.trak ext t ∈ m → (g t).ser.length = t.ser.length) :
    (m.put g a).ser.length = (m.put id a).ser.length := by
  have hl : ∀ ks : List MoovKid, (∀ ext t, MoovKid.trak ext t ∈ ks → (g t).ser.length = t.ser.length) →
      (serL MoovKid.box (ks.map (MoovKid.mapTrak g))).length = (serL MoovKid.box ks).length := by
    intro ks
    induction ks with
    | nil => intro _; rfl
    | cons k ks ih =>
      intro h
      have hk : (k.mapTrak g).box.ser.length = k.box.ser.length := by
        cases k with
        | trak ext t =>
          rw [Box.ser_length, Box.ser_length]
          show _ + (g t).ser.length = _ + t.ser.length
          rw [h ext t (by simp)]; rfl
        | _ => rfl
      rw [List.map_cons, serL_cons, serL_cons, List.length_append, List.length_append, hk, ih (fun ext t ht => h ext t (by simp [ht]))]
  unfold Spec.Moov.ser
  rcases moovPut_cases g m a with ⟨hn, hp⟩ | ⟨A, ext, u, B, rfl, hB, hp⟩
  · rw [put_none hn, put_none hn, serL_append, serL_append, List.length_append, List.length_append, hl _ h, mapTrak_id]
  · rw [put_split hB, put_split hB, serL_append, serL_append, List.length_append, List.length_append,
      hl A (fun ext t ht => h ext t (by simp [ht])), mapTrak_id]

theorem shift_ser_length {f : File} (ht : f.MediaBehind → f.moov.Tables) (d : Int) :
    ∀ ext t, MoovKid.trak ext t ∈ f.moov → ((if f.MediaBehind then Spec.Trak.shift d else id) t).ser.length = t.ser.length := by
  intro ext t h
  split
  · rename_i hm; exact trak_shift_length (ht hm ext t h)
  · rfl

/-- Writing twice is writing the second time only. -/
theorem put_put {f : File} {a b : List AtomData} (ht : f.MediaBehind → f.moov.Tables) (h : SameForm a b) :
    (f.put a).put b = f.put b := by
  have hmb : (f.put a).MediaBehind ↔ f.MediaBehind := Iff.rfl
  have hl : ∀ c, (f.moov.put (if f.MediaBehind then Spec.Trak.shift (f.growth a) else id) c).ser.length = (f.moov.put id c).ser.length :=
    fun c => put_length (shift_ser_length ht _)
  have hgr : f.growth a + (f.put a).growth b = f.growth b := by
    unfold File.growth
    show _ + ((((f.moov.put _ a).put id b).ser.length : Int) - ((f.moov.put _ a).ser.length)) = _
    rw [moovPut_put h, hl a]
    rw [show id ∘ (if f.MediaBehind then Spec.Trak.shift (f.growth a) else id) = (if f.MediaBehind then Spec.Trak.shift (f.growth a) else id) from rfl, hl b]
    omega
  suffices hmv : (f.moov.put (if f.MediaBehind then Spec.Trak.shift (f.growth a) else id) a).put
      (if (f.put a).MediaBehind then Spec.Trak.shift ((f.put a).growth b) else id) b
      = f.moov.put (if f.MediaBehind then Spec.Trak.shift (f.growth b) else id) b by
    exact congrArg (fun m => ({ f with moov := m } : File)) hmv
  rw [moovPut_put h]
  refine moovPut_congr fun ext t htr => ?_
  by_cases hm : f.MediaBehind
  · rw [if_pos (hmb.mpr hm), if_pos hm, if_pos hm]
    show Spec.Trak.shift _ (Spec.Trak.shift _ t) = _
    rw [trak_shift_shift _ _ (ht hm ext t htr), hgr]
  · rw [if_neg (fun h => hm (hmb.mp h)), if_neg hm, if_neg hm]; rfl

/-! ### Well-formedness -/

theorem getLast_upd {β} (h : β → β) (l : List β) : (l.dropLast ++ (l.getLast?.map h).toList).getLast? = l.getLast?.map h := by
  cases hl : l.getLast? with
  | none => rw [List.getLast?_eq_none_iff.mp hl]; rfl
  | some b => simp

theorem node_last {α} {f : α → α} (ks : List (Kid α)) :
    ((mapLast (Kid.mapNode f) ks).filterMap Kid.sel).getLast? = ((ks.filterMap Kid.sel).getLast?).map f := by
  rw [sel_mapLast ks mapNode_none mapNode_some, getLast_upd]

theorem table_last {fc : Fourcc} {φ : Bytes → Bytes} (s : List Box) :
    ((mapLast (fun b : Box => if b.fc = fc then some ⟨b.ext, b.fc, φ b.body⟩ else none) s).filterMap (Box.sel fc)).getLast?
      = ((s.filterMap (Box.sel fc)).getLast?).map φ := by
  rw [sel_mapLast (h := φ) s ?_ ?_, getLast_upd]
  · intro k hk
    split at hk
    · exact absurd hk (by simp)
    · rename_i h; rw [Box.sel, if_neg h]
  · intro k k' hk
    split at hk
    · rename_i h
      injection hk with hk
      subst hk
      exact ⟨k.body, by rw [Box.sel, if_pos h], by rw [Box.sel, if_pos h]⟩
    · exact absurd hk (by simp)

/-- The tables that count in a shifted sample table. -/
theorem stbl_shift_stco {d : Int} {s : Stbl} : ((s.shift d).filterMap (Box.sel (cc 's' 't' 'c' 'o'))).getLast?
    = ((s.filterMap (Box.sel (cc 's' 't' 'c' 'o'))).getLast?).map (mapOffsets 4 (shiftBy d)) := by
  rw [Stbl.shift, box_sel_mapTable (by decide)]
  exact table_last (φ := mapOffsets 4 (shiftBy d)) s

theorem stbl_shift_co64 {d : Int} {s : Stbl} : ((s.shift d).filterMap (Box.sel (cc 'c' 'o' '6' '4'))).getLast?
    = ((s.filterMap (Box.sel (cc 'c' 'o' '6' '4'))).getLast?).map (mapOffsets 8 (shiftBy d)) := by
  have := table_last (fc := cc 'c' 'o' '6' '4') (φ := mapOffsets 8 (shiftBy d))
    (mapLast (fun b : Box => if b.fc = cc 's' 't' 'c' 'o' then some ⟨b.ext, b.fc, mapOffsets 4 (shiftBy d) b.body⟩ else none) s)
  rw [box_sel_mapTable (fc := cc 'c' 'o' '6' '4') (fc' := cc 's' 't' 'c' 'o') (w := 4) (by decide) s] at this
  exact this

theorem mapLast_all {κ} {P : κ → Prop} {f : κ → Option κ} {ks : List κ} (h : ∀ k ∈ ks, P k)
    (hf : ∀ k, IsLast f ks k → ∀ k', f k = some k' → P k') : ∀ k ∈ mapLast f ks, P k := by
  rcases last_split (fun k => f k ≠ none) ks with hn | ⟨A, x, B, rfl, hk, hB⟩
  · rw [mapLast_none fun k hk => Decidable.not_not.mp (hn k hk)]
    exact h
  · obtain ⟨x', hx'⟩ := Option.ne_none_iff_exists'.mp hk
    have hB' := fun y hy => Decidable.not_not.mp (hB y hy)
    rw [mapLast_split hx' hB']
    intro k hk
    rcases List.mem_append.mp hk with hk | hk
    · exact h k (by simp [hk])
    · rcases List.mem_cons.mp hk with rfl | hk
      · exact hf x ⟨A, B, rfl, hB'⟩ k hx'
      · exact h k (by simp [hk])

theorem table_all {P : Box → Prop} {fc : Fourcc} {φ : Bytes → Bytes} {s : List Box} (h : ∀ b ∈ s, P b)
    (hf : ∀ b ∈ s, (s.filterMap (Box.sel fc)).getLast? = some b.body → P ⟨b.ext, b.fc, φ b.body⟩) :
    ∀ b ∈ mapLast (fun b : Box => if b.fc = fc then some ⟨b.ext, b.fc, φ b.body⟩ else none) s, P b := by
  refine mapLast_all h fun k hk k' hk' => ?_
  split at hk'
  · rename_i hfc
    injection hk' with hk'
    subst hk'
    exact hf k hk.mem (hk.table (φ := fun b => ⟨b.ext, b.fc, φ b.body⟩) hfc)
  · exact absurd hk' (by simp)

theorem tableWF_mapOffsets {w : Nat} (hw : w = 4 ∨ w = 8) {body : Bytes} (h : TableWF w body) {φ : Nat → Nat}
    (hφ : ∀ o ∈ offsets w body, φ o % 256 ^ w < 2^62) : TableWF w (mapOffsets w φ body) := by
  have hl := mapOffsets_length hw h φ
  have ho' := offsets_mapOffsets hw h φ
  obtain ⟨flags, n, hf, hn, h8, hbl, ho⟩ := h
  refine ⟨flags, n, hf, hn, ?_, by rw [hl, hbl], ?_⟩
  · have h8l : (body.take 8).length = 8 := by rw [h8]; simp [hf, be32_length]
    rw [mapOffsets, List.take_left' h8l, h8]
  · rw [ho']
    intro o h
    obtain ⟨x, hx, rfl⟩ := List.mem_map.mp h
    exact hφ x hx

theorem fits_mapOffsets {w : Nat} (hw : w = 4 ∨ w = 8) {b : Box} (h : TableWF w b.body) {φ : Nat → Nat} (hf : b.Fits) :
    (⟨b.ext, b.fc, mapOffsets w φ b.body⟩ : Box).Fits := by
  intro he
  show (mapOffsets w φ b.body).length + 8 < _
  rw [mapOffsets_length hw h]
  exact hf he

theorem cc_stco_co64 {fc : Fourcc} (h : fc = cc 's' 't' 'c' 'o') : fc ≠ cc 'c' 'o' '6' '4' := by rw [h]; decide

theorem stbl_shift_WF {d : Int} {s : Stbl} (h : s.Tables) (hw : s.WF) : (s.shift d).WF := by
  have h1 : ∀ b ∈ mapLast (fun b : Box => if b.fc = cc 's' 't' 'c' 'o' then some ⟨b.ext, b.fc, mapOffsets 4 (shiftBy d) b.body⟩ else none) s,
      b.Fits := table_all (φ := mapOffsets 4 (shiftBy d)) hw fun b hb hl => fits_mapOffsets (.inl rfl) (h.1 _ hl) (hw b hb)
  refine table_all (P := Box.Fits) (φ := mapOffsets 8 (shiftBy d)) h1 fun b hb hl => ?_
  rw [box_sel_mapTable (by decide) s] at hl
  exact fits_mapOffsets (.inr rfl) (h.2 _ hl) (h1 b hb)

theorem stbl_shift_tables {d : Int} {s : Stbl} (h : s.Tables) (hr : s.InRange d) : (s.shift d).Tables := by
  refine ⟨fun body hb => ?_, fun body hb => ?_⟩
  · rw [stbl_shift_stco] at hb
    obtain ⟨x, hx, rfl⟩ := Option.map_eq_some_iff.mp hb
    refine tableWF_mapOffsets (.inl rfl) (h.1 x hx) fun o _ => ?_
    have := Nat.mod_lt (shiftBy d o) (show 256 ^ 4 > 0 by decide)
    exact Nat.lt_trans this (by decide)
  · rw [stbl_shift_co64] at hb
    obtain ⟨x, hx, rfl⟩ := Option.map_eq_some_iff.mp hb
    exact tableWF_mapOffsets (.inr rfl) (h.2 x hx) fun o ho => Nat.lt_of_le_of_lt (Nat.mod_le _ _) (hr x hx o ho)

theorem node_WF {α} {fc : Fourcc} {ser : α → Bytes} {P : α → Prop} {f : α → α} {ks : List (Kid α)}
    (h : ∀ k ∈ ks, Kid.WF fc ser P k)
    (hf : ∀ a, (ks.filterMap Kid.sel).getLast? = some a → (ser (f a)).length = (ser a).length ∧ (P a → P (f a))) :
    ∀ k ∈ mapLast (Kid.mapNode f) ks, Kid.WF fc ser P k := by
  refine mapLast_all h fun k hk k' hk' => ?_
  cases k with
  | raw b => exact absurd hk' (by simp [Kid.mapNode])
  | node ext a =>
    injection hk' with hk'
    subst hk'
    obtain ⟨h1, h2⟩ := hf a hk.kid
    obtain ⟨h3, h4⟩ := h _ hk.mem
    refine ⟨fun he => ?_, h2 h4⟩
    show (ser (f a)).length + 8 < _
    rw [h1]
    exact h3 he

theorem trak_shift_WF {d : Int} {t : Spec.Trak} (h : t.Tables) (hw : t.WF) : (t.shift d).WF := by
  refine node_WF hw fun a ha => ⟨node_length fun a' ha' => node_length fun a'' ha'' =>
    stbl_shift_length (h a ha a' ha' a'' ha''), fun hwa => ?_⟩
  refine node_WF hwa fun a' ha' => ⟨node_length fun a'' ha'' => stbl_shift_length (h a ha a' ha' a'' ha''), fun hwa' => ?_⟩
  exact node_WF hwa' fun a'' ha'' => ⟨stbl_shift_length (h a ha a' ha' a'' ha''), fun hw'' => stbl_shift_WF (h a ha a' ha' a'' ha'') hw''⟩

/-- The kids of a container, the last interpreted one changed. -/
theorem node_pred {α} {f : α → α} {Q : α → Prop} {ks : List (Kid α)} (hf : ∀ a, (ks.filterMap Kid.sel).getLast? = some a → Q (f a)) :
    ∀ a, ((mapLast (Kid.mapNode f) ks).filterMap Kid.sel).getLast? = some a → Q a := by
  intro a ha
  rw [node_last] at ha
  obtain ⟨x, hx, rfl⟩ := Option.map_eq_some_iff.mp ha
  exact hf x hx

theorem trak_shift_tables {d : Int} {t : Spec.Trak} (h : t.Tables) (hr : t.InRange d) : (t.shift d).Tables :=
  node_pred fun a ha => node_pred fun a' ha' => node_pred fun a'' ha'' =>
    stbl_shift_tables (h a ha a' ha' a'' ha'') (hr a ha a' ha' a'' ha'')

theorem newMeta_WF (atoms : List AtomData) : (newMeta atoms).WF := by
  refine ⟨rfl, ?_⟩
  intro b hb
  simp only [newMeta, List.mem_cons, List.not_mem_nil, or_false] at hb
  rcases hb with rfl | rfl <;> exact mkBox_fits _ _

theorem metaPut_WF {m : Meta} {atoms : List AtomData} (h : m.WF) : (m.put atoms).WF := by
  obtain ⟨A, old, B, hk, hp, -, -⟩ := metaPut_cases m atoms
  rw [hp]
  refine ⟨h.1, fun b hb => ?_⟩
  rcases List.mem_append.mp hb with hb | hb
  · rcases List.mem_append.mp hb with hb | hb
    · exact h.2 b (by rw [hk]; simp [hb])
    · obtain ⟨C, hC, hC'⟩ := newKids_split m atoms
      rw [hC] at hb
      rcases List.mem_append.mp hb with hb | hb
      · rcases hC' with ⟨rfl, _⟩ | ⟨rfl, _⟩
        · exact absurd hb (by simp)
        · rw [List.mem_singleton.mp hb]; exact mkBox_fits _ _
      · rw [List.mem_singleton.mp hb]; exact mkBox_fits _ _
  · exact h.2 b (by rw [hk]; simp [hb])

/-- Sizes apart, changing the user data keeps it well-formed. -/
theorem udtaPut_WF {u : Udta} {atoms : List AtomData} (h : u.WF)
    (hf : ∀ x ∈ u.put atoms, (Kid.box (cc 'm' 'e' 't' 'a') Meta.ser x).Fits) : (u.put atoms).WF := by
  intro k hk
  refine ⟨hf k hk, ?_⟩
  rcases last_split isMeta u with hn | ⟨A, x, B, rfl, hx, hB⟩
  · rw [udtaPut_none hn] at hk
    rcases List.mem_append.mp hk with hk | hk
    · exact (h k hk).2
    · rw [List.mem_singleton.mp hk]; exact newMeta_WF atoms
  · cases x with
    | raw b => exact absurd hx id
    | node ext m =>
      rw [udtaPut_split hB] at hk
      rcases List.mem_append.mp hk with hk | hk
      · exact (h k (by simp [hk])).2
      · rcases List.mem_cons.mp hk with rfl | hk
        · exact metaPut_WF (h (.node ext m) (by simp)).2
        · exact (h k (by simp [hk])).2

theorem mapTrak_WF {g : Spec.Trak → Spec.Trak} {ks : List MoovKid} (hw : ∀ k ∈ ks, k.WF)
    (hg : ∀ ext t, MoovKid.trak ext t ∈ ks → t.WF → (g t).WF ∧ (g t).ser.length = t.ser.length) :
    ∀ k ∈ ks.map (MoovKid.mapTrak g), k.WF := by
  intro k hk
  obtain ⟨x, hx, rfl⟩ := List.mem_map.mp hk
  have h := hw x hx
  cases x with
  | trak ext t =>
    obtain ⟨h1, h2⟩ := hg ext t hx h.2
    refine ⟨fun he => ?_, h1⟩
    show (g t).ser.length + 8 < _
    rw [h2]
    exact h.1 he
  | udta ext u => exact h
  | raw b => exact h

theorem put_WF {f : File} {atoms : List AtomData} (hw : f.WF) (ht : f.MediaBehind → f.moov.Tables) (hp : f.PutFits atoms) :
    (f.put atoms).WF := by
  obtain ⟨h1, h2, h3, h4, h5⟩ := hw
  obtain ⟨hp1, hp2⟩ := hp
  refine ⟨h1, hp1, ?_, h4, h5⟩
  have hg : ∀ ext t, MoovKid.trak ext t ∈ f.moov → t.WF →
      ((if f.MediaBehind then Spec.Trak.shift (f.growth atoms) else id) t).WF ∧
      ((if f.MediaBehind then Spec.Trak.shift (f.growth atoms) else id) t).ser.length = t.ser.length := by
    intro ext t htr hwt
    refine ⟨?_, shift_ser_length ht _ ext t htr⟩
    split
    · rename_i hm; exact trak_shift_WF (ht hm ext t htr) hwt
    · exact hwt
  show Moov.WF (f.moov.put _ atoms)
  rcases moovPut_cases (if f.MediaBehind then Spec.Trak.shift (f.growth atoms) else id) f.moov atoms with ⟨hn, hpe⟩ | ⟨A, ext, u, B, he, hB, hpe⟩
  · have hp3 := hp2
    rw [show (f.put atoms).moov = _ from hpe] at hp3
    rw [hpe]
    intro k hk
    rcases List.mem_append.mp hk with hk | hk
    · exact mapTrak_WF h3 hg k hk
    · have hk' := List.mem_singleton.mp hk
      subst hk'
      obtain ⟨ha, hb⟩ := hp3 _ (List.mem_append.mpr (.inr hk))
      refine ⟨ha, fun x hx => ⟨hb _ _ rfl x hx, ?_⟩⟩
      rw [List.mem_singleton.mp hx]; exact newMeta_WF atoms
  · have hp3 := hp2
    rw [show (f.put atoms).moov = _ from hpe] at hp3
    rw [hpe]
    rw [he] at h3 hg
    intro k hk
    rcases List.mem_append.mp hk with hk' | hk'
    · exact mapTrak_WF (fun k hk => h3 k (by simp [hk])) (fun ext t ht => hg ext t (by simp [ht])) k hk'
    · rcases List.mem_cons.mp hk' with rfl | hk'
      · obtain ⟨ha, hb⟩ := hp3 _ hk
        exact ⟨ha, udtaPut_WF (h3 (.udta ext u) (by simp)).2 (hb _ _ rfl)⟩
      · exact h3 k (by simp [hk'])

/-- Small files: the sizes fit. -/
theorem putFits_of_small {f : File} {atoms : List AtomData} (h : (f.put atoms).moov.ser.length + 8 < 2^32) : f.PutFits atoms := by
  refine ⟨fun _ => h, fun k hk => ?_⟩
  have hk' := serL_mem_le (box := MoovKid.box) hk
  have hkl := Box.ser_length k.box
  unfold Spec.Moov.ser at h
  refine ⟨fun _ => by omega, ?_⟩
  rintro ext u rfl x hx _
  have h1 := serL_mem_le (box := Kid.box (cc 'm' 'e' 't' 'a') Meta.ser) hx
  have h2 := Box.ser_length (Kid.box (cc 'm' 'e' 't' 'a') Meta.ser x)
  have h3 : (MoovKid.udta ext u).box.body = serL (Kid.box (cc 'm' 'e' 't' 'a') Meta.ser) u := rfl
  rw [h3] at hkl
  omega

/-- The tables remain well-formed. -/
theorem put_tables {f : File} {atoms : List AtomData} (ht : f.MediaBehind → f.moov.Tables)
    (hr : f.MediaBehind → f.moov.InRange (f.growth atoms)) : (f.put atoms).MediaBehind → (f.put atoms).moov.Tables := by
  intro hm
  have hm' : f.MediaBehind := hm
  intro ext t htr
  have hmv : (f.put atoms).moov = f.moov.put (Spec.Trak.shift (f.growth atoms)) atoms := by rw [File.put, if_pos hm']
  rw [hmv] at htr
  have hmap : ∀ ks : List MoovKid, (∀ k ∈ ks, k ∈ f.moov) → .trak ext t ∈ ks.map (MoovKid.mapTrak (Spec.Trak.shift (f.growth atoms))) → t.Tables := by
    intro ks hks h
    obtain ⟨k, hk, he⟩ := List.mem_map.mp h
    cases k with
    | trak ext' t' =>
      injection he with _ he
      subst he
      exact trak_shift_tables (ht hm' _ _ (hks _ hk)) (hr hm' _ _ (hks _ hk))
    | udta => exact absurd he (by simp [MoovKid.mapTrak])
    | raw => exact absurd he (by simp [MoovKid.mapTrak])
  rcases moovPut_cases (Spec.Trak.shift (f.growth atoms)) f.moov atoms with ⟨hn, hpe⟩ | ⟨A, ext', u, B, he, hB, hpe⟩
  · rw [hpe] at htr
    rcases List.mem_append.mp htr with h | h
    · exact hmap _ (fun k hk => hk) h
    · exact absurd (List.mem_singleton.mp h) (by simp [udtaKid])
  · rw [hpe] at htr
    rcases List.mem_append.mp htr with h | h
    · exact hmap A (fun k hk => by rw [he]; simp [hk]) h
    · rcases List.mem_cons.mp h with h | h
      · exact absurd h (by simp)
      · exact ht hm' ext t (by rw [he]; simp [h])

/-! ### Chunk offsets -/

theorem node_chunks {α} {f : α → α} {c : α → List Nat} {φ : Nat → Nat} {ks : List (Kid α)}
    (h : ∀ a, (ks.filterMap Kid.sel).getLast? = some a → c (f a) = (c a).map φ) :
    ((((mapLast (Kid.mapNode f) ks).filterMap Kid.sel).getLast?).map c).getD [] = ((((ks.filterMap Kid.sel).getLast?).map c).getD []).map φ := by
  rw [node_last]
  cases hl : (ks.filterMap Kid.sel).getLast? with
  | none => rfl
  | some a => exact h a hl

theorem last_mem {α} {ks : List (Kid α)} {a : α} (h : (ks.filterMap Kid.sel).getLast? = some a) : ∃ ext, Kid.node ext a ∈ ks := by
  have := List.mem_of_getLast? h
  obtain ⟨k, hk, hs⟩ := List.mem_filterMap.mp this
  cases k with
  | node ext a' => injection hs with hs; exact ⟨ext, hs ▸ hk⟩
  | raw b => exact absurd hs (by simp [Kid.sel])

theorem sel_mem {fc : Fourcc} {s : List Box} {body : Bytes} (h : (s.filterMap (Box.sel fc)).getLast? = some body) :
    ∃ b ∈ s, b.fc = fc ∧ b.body = body := by
  obtain ⟨b, hb, hs⟩ := List.mem_filterMap.mp (List.mem_of_getLast? h)
  unfold Box.sel at hs
  split at hs
  · rename_i hfc; injection hs with hs; exact ⟨b, hb, hfc, hs⟩
  · exact absurd hs (by simp)

theorem shiftBy_lt (d : Int) (o : Nat) : shiftBy d o < 2^64 := by unfold shiftBy; omega

theorem stbl_chunks {d : Int} {s : Stbl} (h : s.Tables) :
    (s.shift d).chunks32 = s.chunks32.map (fun o => shiftBy d o % 2^32) ∧
    ((∀ o ∈ s.chunks32, shiftBy d o < 2^32) → (s.shift d).chunks = s.chunks.map (shiftBy d)) := by
  have e4 : (s.shift d).chunks32 = s.chunks32.map (fun o => shiftBy d o % 2^32) := by
    unfold Stbl.chunks32
    rw [stbl_shift_stco]
    cases hl : (s.filterMap (Box.sel (cc 's' 't' 'c' 'o'))).getLast? with
    | none => rfl
    | some body =>
      exact offsets_mapOffsets (.inl rfl) (h.1 _ hl) _
  refine ⟨e4, fun hlt => ?_⟩
  have e8 : (((s.shift d).filterMap (Box.sel (cc 'c' 'o' '6' '4'))).getLast?.map (offsets 8)).getD []
      = (((s.filterMap (Box.sel (cc 'c' 'o' '6' '4'))).getLast?.map (offsets 8)).getD []).map (shiftBy d) := by
    rw [stbl_shift_co64]
    cases hl : (s.filterMap (Box.sel (cc 'c' 'o' '6' '4'))).getLast? with
    | none => rfl
    | some body =>
      show offsets 8 (mapOffsets 8 (shiftBy d) body) = (offsets 8 body).map (shiftBy d)
      rw [offsets_mapOffsets (.inr rfl) (h.2 _ hl)]
      refine List.map_congr_left fun o _ => Nat.mod_eq_of_lt ?_
      exact Nat.lt_of_lt_of_le (shiftBy_lt d o) (by decide)
  show (s.shift d).chunks32 ++ _ = (s.chunks32 ++ _).map _
  rw [e4, e8, List.map_append]
  congr 1
  exact List.map_congr_left fun o ho => Nat.mod_eq_of_lt (hlt o ho)

theorem trak_chunks {d : Int} {t : Spec.Trak} (h : t.Tables) (hlt : ∀ o ∈ t.chunks32, shiftBy d o < 2^32) :
    (t.shift d).chunks = t.chunks.map (shiftBy d) := by
  refine node_chunks fun a ha => node_chunks fun a' ha' => node_chunks fun a'' ha'' => ?_
  refine (stbl_chunks (h a ha a' ha' a'' ha'')).2 fun o ho => hlt o ?_
  unfold Trak.chunks32 Mdia.chunks32 Minf.chunks32
  rw [ha, Option.map_some, Option.getD_some, ha', Option.map_some, Option.getD_some, ha'']
  exact ho

theorem trak_chunks32 {d : Int} {t : Spec.Trak} (h : t.Tables) :
    (t.shift d).chunks32 = t.chunks32.map (fun o => shiftBy d o % 2^32) := by
  refine node_chunks fun a ha => node_chunks fun a' ha' => node_chunks fun a'' ha'' => ?_
  exact (stbl_chunks (h a ha a' ha' a'' ha'')).1

end Mp4
