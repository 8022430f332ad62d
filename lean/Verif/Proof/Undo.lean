import Verif.Spec.Undo
import Verif.Proof.PutPut
import Verif.Proof.Put
import Verif.Proof.Unique

/-! # When saving leaves a file as it is -/

namespace Mp4
open Spec

theorem udta?_nil {B : List MoovKid} : B.filterMap MoovKid.udta? = [] ↔ ∀ k ∈ B, ¬ isUdta k := by
  rw [List.filterMap_eq_nil_iff]
  refine forall_congr' fun k => forall_congr' fun _ => ?_
  cases k <;> simp [MoovKid.udta?, isUdta]

theorem metaSel_nil {B : Udta} : B.filterMap Kid.sel = [] ↔ ∀ k ∈ B, ¬ isMeta k := by
  rw [List.filterMap_eq_nil_iff]
  refine forall_congr' fun k => forall_congr' fun _ => ?_
  cases k <;> simp [Kid.sel, isMeta]

theorem metaPut_self {m : Meta} {atoms : List AtomData} : m.put atoms = m ↔ m.Holds atoms := by
  constructor
  · intro h
    obtain ⟨A, old, B, hk, hp, hB, ho⟩ := metaPut_cases m atoms
    obtain ⟨C, hC, hC'⟩ := newKids_split m atoms
    have hkids : A ++ old ++ B = A ++ newKids m atoms ++ B := by rw [← hk, ← congrArg Meta.kids h, hp]
    have hlen := congrArg List.length hkids
    rw [hC] at hlen
    simp only [List.length_append, List.length_cons, List.length_nil] at hlen
    have hold : old.length ≤ 1 := by rcases ho with ⟨il, rfl, -⟩ | ⟨rfl, -⟩ <;> simp
    rcases hC' with ⟨rfl, hx⟩ | ⟨rfl, hx⟩
    · refine ⟨hx, A, B, ?_, hB⟩
      rw [hk, hkids, hC]; simp
    · simp only [List.length_cons, List.length_nil] at hlen; omega
  · rintro ⟨hx, C, D, hk, hD⟩
    rw [metaPut_split hk rfl hD, newKids, if_pos hx]
    obtain ⟨fl, ks⟩ := m
    dsimp only at hk
    rw [hk]; simp

theorem udtaPut_self {u : Udta} {atoms : List AtomData} : u.put atoms = u ↔
    ∃ A' ext' m B', u = A' ++ .node ext' m :: B' ∧ B'.filterMap Kid.sel = [] ∧ m.Holds atoms := by
  constructor
  · intro h
    rcases last_split isMeta u with hn | ⟨A, k, B, rfl, hk, hB⟩
    · rw [udtaPut_none hn] at h
      have := congrArg List.length h
      simp at this
    · cases k with
      | raw b => exact hk.elim
      | node ext m =>
        refine ⟨A, ext, m, B, rfl, metaSel_nil.mpr hB, metaPut_self.mp ?_⟩
        rw [udtaPut_split hB] at h
        have := List.append_cancel_left h
        injection this with h1 _
        injection h1
  · rintro ⟨A, ext, m, B, rfl, hB, hm⟩
    rw [udtaPut_split (metaSel_nil.mp hB), metaPut_self.mpr hm]

theorem moovPut_self {m : Spec.Moov} {g : Spec.Trak → Spec.Trak} {atoms : List AtomData} (h : m.put g atoms = m) : m.Holds atoms := by
  rcases moovPut_cases g m atoms with ⟨-, hp⟩ | ⟨A, ext, u, B, hm, hB, hp⟩
  · rw [h] at hp
    have := congrArg List.length hp
    simp at this
  · refine ⟨A, ext, u, B, hm, udta?_nil.mpr hB, udtaPut_self.mp ?_⟩
    rw [h] at hp
    rw [hm] at hp
    have := (List.append_inj hp (by simp)).2
    injection this with h1 _
    injection h1 with _ h1
    exact h1.symm

theorem moovPut_of_holds {m : Spec.Moov} {atoms : List AtomData} (h : m.Holds atoms) : m.put id atoms = m := by
  obtain ⟨A, ext, u, B, rfl, hB, hu⟩ := h
  rw [put_split (udta?_nil.mp hB), udtaPut_self.mpr hu, mapTrak_id]

theorem put_self {f : File} {atoms : List AtomData} (ht : f.MediaBehind → f.moov.Tables) : f.put atoms = f ↔ f.moov.Holds atoms := by
  constructor
  · intro h
    exact moovPut_self (congrArg File.moov h)
  · intro h
    have hid := moovPut_of_holds h
    have hg : f.growth atoms = 0 := by unfold File.growth; rw [hid]; omega
    have hm : f.moov.put (if f.MediaBehind then Spec.Trak.shift (f.growth atoms) else id) atoms = f.moov := by
      refine Eq.trans ?_ hid
      split
      · rename_i hmb
        refine moovPut_congr fun ext t hk => ?_
        rw [hg]
        exact trak_shift_zero (ht hmb ext t hk)
      · rfl
    obtain ⟨x1, x2, x3, x4, x5, x6⟩ := f
    unfold File.put
    rw [hm]

theorem holds_put {f : File} {atoms : List AtomData} (ht : f.MediaBehind → f.moov.Tables) : (f.put atoms).moov.Holds atoms :=
  moovPut_self (congrArg File.moov (put_put ht (a := atoms) (b := atoms) ⟨Iff.rfl, Iff.rfl⟩))

theorem holds_dump (atoms : List AtomData) : (dumpFile atoms).moov.Holds atoms :=
  ⟨[], _, newUdta atoms, [], rfl, rfl, [], _, newMeta atoms, [], rfl, rfl, ⟨hdlrBox, by simp [newMeta], rfl⟩, [hdlrBox], [], rfl, by simp⟩

/-- Saving onto a dumped file is dumping. -/
theorem dumpFile_put {A B : List AtomData} (h : SameForm A B) (hA : (newMoov A).ser.length + 8 < 2^32) (hB : (newMoov B).ser.length + 8 < 2^32) :
    (dumpFile A).put B = dumpFile B := by
  have hm : (newMoov A).put id B = newMoov B := by
    show Moov.put id B ([] ++ udtaKid (newUdta A) :: []) = _
    unfold udtaKid
    rw [put_split (by simp), newUdta_put h]
    unfold newMoov udtaKid
    rw [decide_eq_decide.mpr h.2]; rfl
  unfold dumpFile File.put
  have : ¬ (File.MediaBehind { ftypExt := false, ftyp := "M4A \x00\x00\x02\x00isomiso2".toList, pre := [], moovExt := decide (2^32 ≤ (newMoov A).ser.length + 8), moov := newMoov A, post := [] }) := by
    rintro ⟨b, hb, -⟩; cases hb
  rw [if_neg this]
  dsimp only
  rw [hm, decide_eq_false (by omega), decide_eq_false (by omega)]

end Mp4
