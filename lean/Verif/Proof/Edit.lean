import Verif.Spec.Edit
import Verif.Proof.Commute
/-
Entries that no call is about.
-/
namespace Mp4
open Spec

/-- The same on the identifiers in `S`: the same ones, in the same order, with the same values. -/
def SameOn (S : DataIdent → Bool) (m m' : OMap) : Prop := m.keys.filter S = m'.keys.filter S ∧ ∀ j, S j = true → m.vals j = m'.vals j

theorem SameOn.refl (S m) : SameOn S m m := ⟨rfl, fun _ _ => rfl⟩

theorem SameOn.trans {S a b c} (h : SameOn S a b) (h' : SameOn S b c) : SameOn S a c :=
  ⟨h.1.trans h'.1, fun j hj => (h.2 j hj).trans (h'.2 j hj)⟩

theorem sameOn_upd {S : DataIdent → Bool} {i} (h : S i = false) (m : OMap) (v) : SameOn S ⟨m.keys, OMap.upd m.vals i v⟩ m :=
  ⟨rfl, fun j hj => if_neg (fun e => by rw [e, h] at hj; cases hj)⟩

theorem sameOn_put {S : DataIdent → Bool} {i} (h : S i = false) (m : OMap) (ds) : SameOn S (m.put i ds) m := by
  refine ⟨?_, (sameOn_upd h m ds).2⟩
  simp only [OMap.put, OMap.insKey]
  split
  · rfl
  · simp [List.filter_append, h]

theorem sameOn_del {S : DataIdent → Bool} {i} (h : S i = false) (m : OMap) : SameOn S (m.del i) m := by
  refine ⟨?_, (sameOn_upd h m []).2⟩
  simp only [OMap.del, List.filter_filter]
  refine List.filter_congr fun j _ => ?_
  by_cases hj : j = i
  · subst hj; simp [h]
  · simp [hj]

theorem sameOn_modify {S : DataIdent → Bool} {i} (h : S i = false) (m : OMap) (f) : SameOn S (m.modify i f) m := by
  unfold OMap.modify; split
  · exact sameOn_upd h _ _
  · exact .refl _ _

theorem sameOn_keepOf {S : DataIdent → Bool} {i} (h : S i = false) (m : OMap) (p) : SameOn S (m.keepOf i p) m := by
  unfold OMap.keepOf; split
  · exact sameOn_del h _
  · exact sameOn_upd h _ _

theorem sameOn_firstBytes {S : DataIdent → Bool} {i} (h : S i = false) (m : OMap) (f new) : SameOn S (m.firstBytes i f new) m := by
  unfold OMap.firstBytes; split
  · exact sameOn_upd h _ _
  · exact sameOn_put h _ _

theorem sameOn_none {S : DataIdent → Bool} (h : ∀ j, S j = false) (m m' : OMap) : SameOn S m m' :=
  ⟨by rw [List.filter_eq_nil_iff.mpr (by simp [h]), List.filter_eq_nil_iff.mpr (by simp [h])], fun j hj => by rw [h j] at hj; cases hj⟩

theorem apply_sameOn {S : DataIdent → Bool} (o : TagOp) (h : ∀ j, about j o = true → S j = false) (m : OMap) :
    SameOn S (m.apply o) m := by
  cases o <;> simp only [about, decide_eq_true_eq, forall_eq, forall_const, forall_eq_or_imp] at h <;>
    first
    | exact sameOn_none h _ _
    | exact sameOn_put h _ _
    | exact sameOn_del h _
    | exact sameOn_keepOf h _ _
    | exact sameOn_modify h _ _
    | exact sameOn_firstBytes h _ _ _
    | (simp only [OMap.apply]; split
       · exact sameOn_firstBytes h _ _ _
       · exact sameOn_del h _)
    | exact (sameOn_del h.1 _).trans (sameOn_put h.2 _ _)
    | exact (sameOn_del h.2 _).trans (sameOn_del h.1 _)
    | (simp only [OMap.apply]; split
       · split
         · exact .refl _ _
         · exact sameOn_del h _
       · exact sameOn_del h _)

theorem fold_sameOn {S : DataIdent → Bool} (p : List TagOp) (h : ∀ o ∈ p, ∀ j, about j o = true → S j = false) (m : OMap) :
    SameOn S (p.foldl OMap.apply m) m := by
  induction p generalizing m with
  | nil => exact .refl _ _
  | cons o p ih =>
    exact (ih (fun x hx => h x (List.mem_cons_of_mem _ hx)) _).trans (apply_sameOn o (h o (List.mem_cons_self ..)) m)

theorem atoms_of_abs (t : Tag) (h : t.NoDup) : t.atoms = t.abs.keys.map fun k => ⟨k, t.abs.vals k⟩ := by
  have : t.abs.keys.map (fun k => (⟨k, t.abs.vals k⟩ : AtomData)) = t.atoms.map fun a => ⟨a.ident, t.abs.vals a.ident⟩ := by
    simp only [Tag.abs, List.map_map]; rfl
  rw [this]
  conv => lhs; rw [← List.map_id t.atoms]
  refine List.map_congr_left fun a ha => ?_
  rw [((mem_atoms_iff t h a).mp ha).2]; rfl

theorem atoms_sameOn {S : DataIdent → Bool} {t u : Tag} (ht : t.NoDup) (hu : u.NoDup) (h : SameOn S t.abs u.abs) :
    (t.atoms.filter fun a => S a.ident) = u.atoms.filter fun a => S a.ident := by
  rw [atoms_of_abs t ht, atoms_of_abs u hu, List.filter_map, List.filter_map]
  have e : ∀ v : Tag, ((fun a : AtomData => S a.ident) ∘ fun k => (⟨k, v.abs.vals k⟩ : AtomData)) = S := fun _ => rfl
  rw [e, e, h.1]
  refine List.map_congr_left fun k hk => ?_
  rw [h.2 k (List.mem_filter.mp hk).2]

end Mp4
