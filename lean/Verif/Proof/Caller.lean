import Verif.Spec.Caller
import Verif.Proof.TagMap
/-
The loops of `retain_data` with a predicate that has effects or panics.
-/
namespace Mp4
open Spec

theorem keepBy_nil {α} (xs : List α) : keepBy [] xs = xs := by cases xs <;> rfl

theorem vecRetain_eq {σ} (p : Caller σ Data) : ∀ (l : List Data) (s : σ), vecRetain p l s = (keepBy (ask p l s).1 l, (ask p l s).2)
  | [], s => rfl
  | d :: l, s => by
    rw [vecRetain, ask]
    rcases h : p d s with ⟨_ | _ | _, s'⟩
    · simp only [keepBy_nil]
    · simp only [vecRetain_eq p l s', keepBy, Bool.false_eq_true, if_false]
    · simp only [vecRetain_eq p l s', keepBy, if_true]

theorem retainInnerC_eq {σ} (p : Caller σ Data) : ∀ (l2 l1 : List Data) (s : σ),
    retainInnerC p (l1 ++ l2) l1.length s = (l1 ++ keepBy (ask p l2 s).1 l2, (ask p l2 s).2)
  | [], l1, s => by
    rw [retainInnerC, dif_neg (by simp)]
    rfl
  | d :: l, l1, s => by
    have hl : l1.length < (l1 ++ d :: l).length := by simp
    have hd : (l1 ++ d :: l)[l1.length] = d := by simp
    rw [retainInnerC, dif_pos hl, hd, ask]
    rcases h : p d s with ⟨_ | _ | _, s'⟩
    · simp only [keepBy_nil]
    · simp only [keepBy, Bool.false_eq_true, if_false]
      rw [List.eraseIdx_append_of_length_le (Nat.le_refl _), Nat.sub_self, List.eraseIdx_cons_zero]
      exact retainInnerC_eq p l l1 s'
    · simp only [keepBy, if_true]
      have := retainInnerC_eq p l (l1 ++ [d]) s'
      rw [List.append_assoc, List.length_append] at this
      simpa using this

/-- The outer loop entry by entry. -/
def sweep {σ} (p : DataIdent → Caller σ Data) : List AtomData → σ → List AtomData × Bool × σ
  | [], s => ([], false, s)
  | a :: l, s =>
    match ask (p a.ident) a.data s with
    | (bs, true, s') => (⟨a.ident, keepBy bs a.data⟩ :: l, true, s')
    | (bs, false, s') =>
      if keepBy bs a.data = [] then sweep p l s' else (⟨a.ident, keepBy bs a.data⟩ :: (sweep p l s').1, (sweep p l s').2)

theorem retainOuterC_eq {σ} (p : DataIdent → Caller σ Data) : ∀ (l2 l1 : List AtomData) (s : σ),
    retainOuterC p (l1 ++ l2) l1.length s = (l1 ++ (sweep p l2 s).1, (sweep p l2 s).2)
  | [], l1, s => by
    rw [retainOuterC, dif_neg (by simp)]
    rfl
  | a :: l, l1, s => by
    have hl : l1.length < (l1 ++ a :: l).length := by simp
    have ha : (l1 ++ a :: l)[l1.length] = a := by simp
    have hin := retainInnerC_eq (p a.ident) a.data [] s
    rw [List.nil_append, List.length_nil, List.nil_append] at hin
    rw [retainOuterC, dif_pos hl, ha, hin, sweep]
    have hset : ∀ ds, (l1 ++ a :: l).set l1.length ⟨a.ident, ds⟩ = l1 ++ ⟨a.ident, ds⟩ :: l := by intro ds; simp
    rcases h : ask (p a.ident) a.data s with ⟨bs, _ | _, s'⟩
    · dsimp only
      rw [hset]
      by_cases hk : keepBy bs a.data = []
      · rw [if_pos (by rw [hk]; rfl), if_pos hk, List.eraseIdx_append_of_length_le (Nat.le_refl _), Nat.sub_self, List.eraseIdx_cons_zero]
        exact retainOuterC_eq p l l1 s'
      · rw [if_neg (by rw [List.isEmpty_iff]; exact hk), if_neg hk]
        have := retainOuterC_eq p l (l1 ++ [⟨a.ident, keepBy bs a.data⟩]) s'
        rw [List.append_assoc, List.length_append] at this
        simpa using this
    · dsimp only
      rw [hset]

theorem retainDataC_eq {σ} (t : Tag) (p : DataIdent → Caller σ Data) (s : σ) :
    t.retainDataC p s = ({ t with atoms := (sweep p t.atoms s).1 }, (sweep p t.atoms s).2) := by
  have := retainOuterC_eq p t.atoms [] s
  rw [List.nil_append, List.length_nil, List.nil_append] at this
  rw [Tag.retainDataC, this]

/-! ### Asking -/

theorem ask_map {σ α β} (f : β → α) (p : Caller σ α) : ∀ (l : List β) (s : σ), ask p (l.map f) s = ask (fun b => p (f b)) l s
  | [], s => rfl
  | b :: l, s => by
    rw [List.map_cons, ask, ask]
    rcases p (f b) s with ⟨_ | _, s'⟩
    · rfl
    · simp only [ask_map f p l s']

theorem keepBy_map {α β} (f : β → α) : ∀ (bs : List Bool) (l : List β), keepBy bs (l.map f) = (keepBy bs l).map f
  | [], l => by rw [keepBy_nil, keepBy_nil]
  | b :: bs, [] => rfl
  | b :: bs, x :: l => by
    rw [List.map_cons, keepBy, keepBy]
    split
    · rw [keepBy_map f bs l, List.map_cons]
    · exact keepBy_map f bs l

/-- After a panic at least one value has no answer; otherwise all have one. -/
theorem ask_length {σ α} (p : Caller σ α) : ∀ (l : List α) (s : σ),
    if (ask p l s).2.1 then (ask p l s).1.length < l.length else (ask p l s).1.length = l.length
  | [], s => rfl
  | x :: l, s => by
    have ih := ask_length p l
    rw [ask]
    rcases p x s with ⟨_ | b, s'⟩
    · simp
    · have := ih s'
      simp only [List.length_cons]
      split <;> rename_i h <;> simp only [h, if_true, Bool.false_eq_true, if_false] at this <;> omega

theorem ask_append {σ α} (p : Caller σ α) : ∀ (xs ys : List α) (s : σ), ask p (xs ++ ys) s =
    if (ask p xs s).2.1 then ask p xs s
    else ((ask p xs s).1 ++ (ask p ys (ask p xs s).2.2).1, (ask p ys (ask p xs s).2.2).2)
  | [], ys, s => rfl
  | x :: xs, ys, s => by
    have ih := ask_append p xs ys
    rw [List.cons_append, ask, ask]
    rcases p x s with ⟨_ | b, s'⟩
    · rfl
    · simp only [ih s']
      split
      · rfl
      · rfl

theorem keepBy_append {α} : ∀ (bs cs : List Bool) (xs ys : List α), bs.length = xs.length →
    keepBy (bs ++ cs) (xs ++ ys) = keepBy bs xs ++ keepBy cs ys
  | [], cs, [], ys, _ => rfl
  | b :: bs, cs, x :: xs, ys, h => by
    have ih := keepBy_append bs cs xs ys (by simpa using h)
    rw [List.cons_append, List.cons_append, keepBy, keepBy, ih]
    split <;> rfl

theorem keepBy_short {α} : ∀ (bs : List Bool) (xs ys : List α), bs.length ≤ xs.length → keepBy bs (xs ++ ys) = keepBy bs xs ++ ys
  | [], xs, ys, _ => by rw [keepBy_nil, keepBy_nil]
  | b :: bs, x :: xs, ys, h => by
    have ih := keepBy_short bs xs ys (by simpa using h)
    rw [List.cons_append, keepBy, keepBy, ih]
    split <;> rfl

/-- All values of a list of entries. -/
def allOf (l : List AtomData) : List (DataIdent × Data) := l.flatMap fun a => a.data.map fun d => (a.ident, d)

theorem sweep_ask {σ} (p : DataIdent → Caller σ Data) : ∀ (l : List AtomData) (s : σ),
    (sweep p l s).2 = (ask (fun x : DataIdent × Data => p x.1 x.2) (allOf l) s).2 ∧
    allOf (sweep p l s).1 = keepBy (ask (fun x : DataIdent × Data => p x.1 x.2) (allOf l) s).1 (allOf l)
  | [], s => ⟨rfl, rfl⟩
  | a :: l, s => by
    have hc : ∀ (a : AtomData) l, allOf (a :: l) = a.data.map (fun d => (a.ident, d)) ++ allOf l := fun a l => List.flatMap_cons
    have hm := ask_map (fun d => (a.ident, d)) (fun x : DataIdent × Data => p x.1 x.2) a.data s
    have hlen := ask_length (p a.ident) a.data s
    have hm' : ask (fun x : DataIdent × Data => p x.1 x.2) (a.data.map fun d => (a.ident, d)) s = ask (p a.ident) a.data s := hm
    rw [sweep, hc, ask_append, hm']
    rcases h : ask (p a.ident) a.data s with ⟨bs, _ | _, s'⟩
    · rw [h] at hlen
      simp only [Bool.false_eq_true, if_false] at hlen ⊢
      obtain ⟨i1, i2⟩ := sweep_ask p l s'
      rw [keepBy_append _ _ _ _ (by rw [List.length_map]; exact hlen), ← i2, keepBy_map]
      by_cases hk : keepBy bs a.data = []
      · rw [if_pos hk, hk]
        exact ⟨i1, rfl⟩
      · rw [if_neg hk, hc]
        exact ⟨i1, rfl⟩
    · rw [h] at hlen
      simp only [if_true] at hlen ⊢
      rw [keepBy_short _ _ _ (by rw [List.length_map]; omega), keepBy_map, hc]
      exact ⟨trivial, rfl⟩

/-- Entries are removed, none is added or moved. -/
theorem sweep_keys {σ} (p : DataIdent → Caller σ Data) : ∀ (l : List AtomData) (s : σ),
    ((sweep p l s).1.map AtomData.ident).Sublist (l.map AtomData.ident)
  | [], s => List.Sublist.refl _
  | a :: l, s => by
    rw [sweep]
    rcases ask (p a.ident) a.data s with ⟨bs, _ | _, s'⟩
    · dsimp only
      split
      · exact (sweep_keys p l s').cons _
      · exact (sweep_keys p l s').cons_cons _
    · exact List.Sublist.refl _

/-- Without a panic, all entries have values. -/
theorem sweep_full {σ} (p : DataIdent → Caller σ Data) : ∀ (l : List AtomData) (s : σ), (sweep p l s).2.1 = false →
    ∀ a ∈ (sweep p l s).1, a.data ≠ []
  | [], s, _ => fun _ h => by cases h
  | a :: l, s, hp => by
    rw [sweep] at hp ⊢
    generalize ask (p a.ident) a.data s = r at hp ⊢
    rcases r with ⟨bs, _ | _, s'⟩
    · dsimp only at hp ⊢
      split at hp
      · rename_i hk
        rw [if_pos hk]
        exact sweep_full p l s' hp
      · rename_i hk
        rw [if_neg hk]
        intro b hb
        rcases List.mem_cons.mp hb with rfl | hb
        · exact hk
        · exact sweep_full p l s' hp b hb
    · cases hp

/-- A predicate without effects. -/
theorem ask_pure {σ α} (q : α → Bool) : ∀ (l : List α) (s : σ), ask (fun x (s : σ) => (some (q x), s)) l s = (l.map q, false, s)
  | [], s => rfl
  | x :: l, s => by rw [ask]; simp only [ask_pure q l s, List.map_cons]

theorem keepBy_filter {α} (q : α → Bool) : ∀ l : List α, keepBy (l.map q) l = l.filter q
  | [] => rfl
  | x :: l => by
    rw [List.map_cons, keepBy, keepBy_filter q l, List.filter_cons]

theorem sweep_pure {σ} (q : DataIdent → Data → Bool) : ∀ (l : List AtomData) (s : σ),
    sweep (fun i d (s : σ) => (some (q i d), s)) l s = (l.filterMap (keepEntry q), false, s)
  | [], s => rfl
  | a :: l, s => by
    rw [sweep, ask_pure]
    dsimp only
    rw [keepBy_filter, sweep_pure q l s]
    by_cases hk : a.data.filter (q a.ident) = []
    · rw [if_pos hk, List.filterMap_cons_none (by rw [keepEntry, if_pos hk])]
    · rw [if_neg hk, List.filterMap_cons_some (by rw [keepEntry, if_neg hk])]

/-! ### One identifier -/

theorem retainDataOfC_eq {σ} (t : Tag) (i : Ident) (p : Caller σ Data) (s : σ) :
    (i.toData ∉ keysL t.atoms ∧ t.retainDataOfC i p s = (t, false, s)) ∨
    ∃ l1 a l2, t.atoms = l1 ++ a :: l2 ∧ i.toData ∉ keysL l1 ∧ a.ident = i.toData ∧
      t.retainDataOfC i p s =
        ({ t with atoms := l1 ++ (if (ask p a.data s).2.1 = false ∧ keepBy (ask p a.data s).1 a.data = [] then []
            else [⟨a.ident, keepBy (ask p a.data s).1 a.data⟩]) ++ l2 }, (ask p a.data s).2) := by
  rcases split_first i.toData t.atoms with h | ⟨l1, a, l2, hl, h1, h2⟩
  · refine .inl ⟨h, ?_⟩
    have : t.atoms.findIdx? (fun a => i.matches a.ident) = none := by
      exact findIdx_none i t.atoms h
    rw [Tag.retainDataOfC, this]
  · refine .inr ⟨l1, a, l2, hl, h1, h2, ?_⟩
    have hf : t.atoms.findIdx? (fun a => i.matches a.ident) = some l1.length := by
      rw [hl]; exact findIdx_split i l1 a l2 h1 h2
    have hg : t.atoms[l1.length]? = some a := by rw [hl]; simp
    rw [Tag.retainDataOfC, hf]
    dsimp only
    rw [hg]
    dsimp only
    rw [vecRetain_eq, hl]
    rcases hr : ask p a.data s with ⟨bs, _ | _, s'⟩
    · dsimp only
      by_cases hk : keepBy bs a.data = []
      · simp [hk, List.eraseIdx_append_of_length_le]
      · simp [hk, List.isEmpty_iff]
    · simp

end Mp4
