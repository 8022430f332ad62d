import Verif.Spec.Commute
import Verif.Proof.TagOps
namespace Mp4
open Spec

/-- Two maps agree about `j`. -/
def SameAt (j : DataIdent) (m m' : OMap) : Prop := (j ∈ m.keys ↔ j ∈ m'.keys) ∧ m.vals j = m'.vals j

theorem SameAt.refl (j m) : SameAt j m m := ⟨Iff.rfl, rfl⟩

theorem mem_insKey (ks : List DataIdent) (i j) : j ∈ OMap.insKey ks i ↔ j ∈ ks ∨ j = i := by
  unfold OMap.insKey; split <;> grind

theorem sameAt_put {j m m'} (h : SameAt j m m') (i ds) : SameAt j (m.put i ds) (m'.put i ds) := by
  obtain ⟨h1, h2⟩ := h
  refine ⟨by simp only [OMap.put, mem_insKey, h1], ?_⟩
  simp only [OMap.put, OMap.upd, h2]

theorem sameAt_put_ne {i j m} (ds) (h : j ≠ i) : SameAt j (m.put i ds) m := by
  refine ⟨by simp only [OMap.put, mem_insKey, h, or_false], ?_⟩
  simp only [OMap.put, OMap.upd, h, if_false]

theorem sameAt_append {j m m'} (h : SameAt j m m') (ds) : SameAt j (m.append j ds) (m'.append j ds) := by
  unfold OMap.append; rw [h.2]; exact sameAt_put h _ _

theorem sameAt_append_ne {i j m} (ds) (h : j ≠ i) : SameAt j (m.append i ds) m := sameAt_put_ne _ h

theorem sameAt_del {j m m'} (h : SameAt j m m') (i) : SameAt j (m.del i) (m'.del i) := by
  obtain ⟨h1, h2⟩ := h
  refine ⟨by simp only [OMap.del, List.mem_filter, h1], ?_⟩
  simp only [OMap.del, OMap.upd, h2]

theorem sameAt_del_ne {i j m} (h : j ≠ i) : SameAt j (m.del i) m := by
  refine ⟨by simp [OMap.del, h], ?_⟩
  simp only [OMap.del, OMap.upd, h, if_false]

theorem sameAt_upd {j m m'} (h : SameAt j m m') (v) : SameAt j ⟨m.keys, OMap.upd m.vals j v⟩ ⟨m'.keys, OMap.upd m'.vals j v⟩ :=
  ⟨h.1, by simp only [OMap.upd, if_true]⟩

theorem sameAt_upd_ne {i j : DataIdent} {m : OMap} (v) (h : j ≠ i) : SameAt j ⟨m.keys, OMap.upd m.vals i v⟩ m :=
  ⟨Iff.rfl, by simp only [OMap.upd, h, if_false]⟩

theorem sameAt_modify {j m m'} (h : SameAt j m m') (f) : SameAt j (m.modify j f) (m'.modify j f) := by
  unfold OMap.modify
  by_cases hk : j ∈ m.keys
  · rw [if_pos hk, if_pos (h.1.mp hk), h.2]; exact sameAt_upd h _
  · rw [if_neg hk, if_neg (fun x => hk (h.1.mpr x))]; exact h

theorem sameAt_modify_ne {i j m} (f) (h : j ≠ i) : SameAt j (OMap.modify m i f) m := by
  unfold OMap.modify; split
  · exact sameAt_upd_ne _ h
  · exact .refl _ _

theorem sameAt_keepOf {j m m'} (h : SameAt j m m') (p) : SameAt j (m.keepOf j p) (m'.keepOf j p) := by
  unfold OMap.keepOf; rw [h.2]; split
  · exact sameAt_del h _
  · exact sameAt_upd h _

theorem sameAt_keepOf_ne {i j m} (p) (h : j ≠ i) : SameAt j (OMap.keepOf m i p) m := by
  unfold OMap.keepOf; split
  · exact sameAt_del_ne h
  · exact sameAt_upd_ne _ h

theorem sameAt_keep {j m m'} (h : SameAt j m m') (p) : SameAt j (m.keep p) (m'.keep p) :=
  ⟨by simp only [OMap.keep, List.mem_filter, h.1, h.2], by simp only [OMap.keep, h.2]⟩

theorem sameAt_firstBytes {j m m'} (h : SameAt j m m') (f new) : SameAt j (m.firstBytes j f new) (m'.firstBytes j f new) := by
  unfold OMap.firstBytes; rw [h.2]; split
  · exact sameAt_upd h _
  · exact sameAt_put h _ _

theorem sameAt_part {j m m'} (h : SameAt j m m') (f new) :
    SameAt j (if m.hasBytes j then m.firstBytes j f new else m.del j) (if m'.hasBytes j then m'.firstBytes j f new else m'.del j) := by
  have : m.hasBytes j = m'.hasBytes j := by simp only [OMap.hasBytes, h.2]
  rw [this]
  by_cases hb : m'.hasBytes j = true
  · rw [if_pos hb, if_pos hb]; exact sameAt_firstBytes h _ _
  · rw [if_neg hb, if_neg hb]; exact sameAt_del h _

theorem sameAt_firstBytes_ne {i j m} (f new) (h : j ≠ i) : SameAt j (OMap.firstBytes m i f new) m := by
  unfold OMap.firstBytes; split
  · exact sameAt_upd_ne _ h
  · exact sameAt_put_ne _ h

theorem SameAt.trans {j a b c} (h : SameAt j a b) (h' : SameAt j b c) : SameAt j a c := ⟨h.1.trans h'.1, h.2.trans h'.2⟩

theorem SameAt.symm {j a b} (h : SameAt j a b) : SameAt j b a := ⟨h.1.symm, h.2.symm⟩

/-- A call that is not about `j` does not change its entry. -/
theorem apply_other {o : TagOp} {j : DataIdent} (hs : separate o = true) (h : about j o = false) (m : OMap) :
    SameAt j (m.apply o) m := by
  cases o <;> simp only [separate, about, decide_eq_false_iff_not, Bool.true_eq_false, Bool.false_eq_true, reduceCtorEq] at h hs <;>
    first
    | exact sameAt_put_ne _ h
    | exact sameAt_append_ne _ h
    | exact sameAt_del_ne h
    | exact sameAt_keepOf_ne _ h
    | exact sameAt_modify_ne _ h
    | exact sameAt_firstBytes_ne _ _ h
    | (simp only [OMap.apply]; split
       · exact sameAt_firstBytes_ne _ _ h
       · exact sameAt_del_ne h)
    | (rw [not_or] at h
       exact (sameAt_del_ne h.1).trans (sameAt_put_ne _ h.2))
    | (rw [not_or] at h
       exact (sameAt_del_ne h.2).trans (sameAt_del_ne h.1))

/-- What a call does to the entry of `j` depends on that entry only. -/
theorem apply_same {o : TagOp} {j : DataIdent} {m m' : OMap} (hs : separate o = true) (h : SameAt j m m') :
    SameAt j (m.apply o) (m'.apply o) := by
  by_cases ha : about j o = true
  · cases o <;> simp only [separate, about, decide_eq_true_eq, Bool.false_eq_true] at ha hs <;>
      first
      | exact sameAt_put h _ _
      | exact sameAt_del h _
      | exact sameAt_keep h _
      | exact .refl _ _
      | (subst ha; exact sameAt_append h _)
      | (subst ha; exact sameAt_keepOf h _)
      | (subst ha; exact sameAt_modify h _)
      | (subst ha; exact sameAt_firstBytes h _ _)
      | (subst ha; exact sameAt_part h _ _)
      | exact sameAt_del (sameAt_put h _ _) _
      | exact sameAt_del (sameAt_del h _) _
  · rw [Bool.not_eq_true] at ha
    exact (apply_other hs ha m).trans (h.trans (apply_other hs ha m').symm)

theorem fold_same {j : DataIdent} (p : List TagOp) {m m' : OMap} (hs : ∀ o ∈ p, separate o = true) (h : SameAt j m m') :
    SameAt j (p.foldl OMap.apply m) (p.foldl OMap.apply m') := by
  induction p generalizing m m' with
  | nil => exact h
  | cons o p ih =>
    exact ih (fun x hx => hs x (List.mem_cons_of_mem _ hx)) (apply_same (hs o (List.mem_cons_self ..)) h)

theorem fold_filter {j : DataIdent} (p : List TagOp) (m : OMap) (hs : ∀ o ∈ p, separate o = true) :
    SameAt j (p.foldl OMap.apply m) ((p.filter (about j)).foldl OMap.apply m) := by
  induction p generalizing m with
  | nil => exact .refl _ _
  | cons o p ih =>
    have hs' := fun x hx => hs x (List.mem_cons_of_mem o hx)
    rw [List.filter_cons]
    by_cases h : about j o = true
    · rw [if_pos h]; exact ih _ hs'
    · rw [if_neg h]
      rw [Bool.not_eq_true] at h
      exact (fold_same p hs' (apply_other (hs o (List.mem_cons_self ..)) h m)).trans (ih _ hs')

theorem sameAt_runOps {p q : List TagOp} (t : Tag) (ht : t.NoDup) (hp : ∀ o ∈ p, separate o = true)
    (hq : ∀ o ∈ q, separate o = true) (h : SameCalls p q) (j : DataIdent) : SameAt j (runOps p t).abs (runOps q t).abs := by
  rw [abs_runOps _ _ ht, abs_runOps _ _ ht]
  have h1 := fold_filter (j := j) p t.abs hp
  rw [h j] at h1
  exact h1.trans (fold_filter q t.abs hq).symm

theorem mem_atoms_iff (t : Tag) (h : t.NoDup) (a : AtomData) : a ∈ t.atoms ↔ a.ident ∈ t.abs.keys ∧ t.abs.vals a.ident = a.data := by
  have key : ∀ l : List AtomData, (l.map AtomData.ident).Nodup →
      (a ∈ l ↔ a.ident ∈ l.map AtomData.ident ∧ (match findAtom (.data a.ident) l with | some b => b.data | none => []) = a.data) := by
    intro l
    induction l with
    | nil => simp
    | cons b l ih =>
      intro hn
      rw [List.map_cons, List.nodup_cons] at hn
      have ih := ih hn.2
      by_cases hb : a.ident = b.ident
      · have hm : a.ident ∉ l.map AtomData.ident := hb ▸ hn.1
        have hnl : a ∉ l := fun hx => hm (List.mem_map_of_mem hx)
        have hf : findAtom (.data a.ident) (b :: l) = some b := by simp [findAtom, Ident.matches, hb]
        rw [hf]
        cases a; cases b; simp_all
        exact eq_comm
      · have hne : a ≠ b := fun hx => hb (hx ▸ rfl)
        have hf : findAtom (.data a.ident) (b :: l) = findAtom (.data a.ident) l := by
          simp [findAtom, Ident.matches, hb]
        rw [hf]
        simp only [List.mem_cons, hne, false_or, List.map_cons, hb]
        exact ih
  exact key t.atoms h

theorem perm_of_agree {t u : Tag} (ht : t.NoDup) (hu : u.NoDup) (h : ∀ j, SameAt j t.abs u.abs) : t.atoms.Perm u.atoms := by
  have nd : ∀ l : List AtomData, (l.map AtomData.ident).Nodup → l.Nodup := by
    intro l
    induction l with
    | nil => simp
    | cons b l ih =>
      intro hn
      rw [List.map_cons, List.nodup_cons] at hn
      exact List.nodup_cons.mpr ⟨fun hx => hn.1 (List.mem_map_of_mem hx), ih hn.2⟩
  rw [List.perm_ext_iff_of_nodup (nd _ ht) (nd _ hu)]
  intro a
  rw [mem_atoms_iff t ht, mem_atoms_iff u hu, (h _).1, (h _).2]

theorem keys_put {m : OMap} {i} (ds) (h : i ∈ m.keys) : (m.put i ds).keys = m.keys := by
  simp only [OMap.put, OMap.insKey, h, if_true]

theorem keys_modify (m : OMap) (i f) : (m.modify i f).keys = m.keys := by
  unfold OMap.modify; split <;> rfl

theorem keys_firstBytes {m : OMap} {i} (f new) (h : i ∈ m.keys) : (m.firstBytes i f new).keys = m.keys := by
  unfold OMap.firstBytes; split
  · rfl
  · exact keys_put _ h

theorem keys_apply {o : TagOp} {m : OMap} (hk : keeps o = true) (h : ∀ j, about j o = true → j ∈ m.keys) :
    (m.apply o).keys = m.keys := by
  cases o <;> simp only [keeps, Bool.false_eq_true, about, decide_eq_true_eq, forall_eq] at hk h <;>
    first
    | exact keys_put _ h
    | exact keys_modify _ _ _
    | exact keys_firstBytes _ _ h

theorem keys_fold (p : List TagOp) {m : OMap} (hk : ∀ o ∈ p, keeps o = true) (h : ∀ o ∈ p, ∀ j, about j o = true → j ∈ m.keys) :
    (p.foldl OMap.apply m).keys = m.keys := by
  induction p generalizing m with
  | nil => rfl
  | cons o p ih =>
    have h1 := keys_apply (hk o (List.mem_cons_self ..)) (h o (List.mem_cons_self ..))
    refine (ih (fun x hx => hk x (List.mem_cons_of_mem _ hx)) ?_).trans h1
    rw [h1]; exact fun x hx => h x (List.mem_cons_of_mem _ hx)

theorem separate_of_keeps {o : TagOp} (h : keeps o = true) : separate o = true := by
  cases o <;> simp only [keeps, Bool.false_eq_true] at h <;> rfl

theorem eq_of_perm {A B : List AtomData} (h : A.Perm B) (hk : A.map AtomData.ident = B.map AtomData.ident)
    (hn : (A.map AtomData.ident).Nodup) : A = B := by
  induction A generalizing B with
  | nil => exact h.nil_eq
  | cons a A ih =>
    cases B with
    | nil => cases hk
    | cons b B =>
      simp only [List.map_cons, List.cons.injEq] at hk
      rw [List.map_cons, List.nodup_cons] at hn
      have hab : a = b := by
        rcases List.mem_cons.mp (h.mem_iff.mp (List.mem_cons_self ..)) with h1 | h1
        · exact h1
        · exact absurd (hk.2 ▸ List.mem_map_of_mem h1) hn.1
      subst hab
      rw [ih (List.Perm.cons_inv h) hk.2 hn.2]

end Mp4
