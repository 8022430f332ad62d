import Verif.Proof.TagOps
import Verif.Proof.Bytes
/-
Lemmas for the accessors, in particular in-place updates of the first byte value.
-/
namespace Mp4
open Spec

theorem dataOf_abs' (t : Tag) (i : Ident) : t.dataOf i = t.abs.vals i.toData := by
  rw [Tag.abs_eq, Tag.dataOf_eq]

theorem modify_first (f : Bytes → Bytes) (l : List Data) (k : Nat)
    (h : l.findIdx? Data.isBytes = some k) :
    (l.modify k (Data.modBytes f)).filterMap Data.bytes?
      = (match l.filterMap Data.bytes? with
        | v :: r => f v :: r
        | [] => []) ∧
    (l.modify k (Data.modBytes f)).filter (!·.isBytes) = l.filter (!·.isBytes) ∧
    l.filterMap Data.bytes? ≠ [] := by
  induction l generalizing k with
  | nil => simp at h
  | cons d l ih =>
    rw [List.findIdx?_cons] at h
    cases hb : d.isBytes with
    | true =>
      simp only [hb, if_true, Option.some.injEq] at h
      subst h
      cases d <;> simp_all [Data.isBytes, List.modify, Data.modBytes, Data.bytes?]
    | false =>
      simp only [hb, Bool.false_eq_true, if_false, Option.map_eq_some_iff] at h
      obtain ⟨k, hk, rfl⟩ := h
      have hv : d.bytes? = none := by rw [isBytes_iff] at hb; simpa using hb
      have := ih k hk
      simp [hv, this, hb]

/-- The effect of updating the first byte value, or storing a new value. -/
theorem firstBytes_effect (t : Tag) (i : Ident) (f : Bytes → Bytes) (d : Data) :
    let t' := (t.withFirstBytes i f).getD (t.setData i d)
    (t'.bytesOf i = match t.bytesOf i with
      | v :: r => f v :: r
      | [] => d.bytes?.toList) ∧
    (∀ j : Ident, j.toData ≠ i.toData → t'.dataOf j = t.dataOf j) ∧
    (t.bytesOf i ≠ [] → (t'.dataOf i).filter (!·.isBytes) = (t.dataOf i).filter (!·.isBytes)) := by
  intro t'
  have habs : t'.abs = t.abs.firstBytes i.toData f d := abs_firstBytes t i f d
  have hd : ∀ j : Ident, t'.dataOf j = (t.abs.firstBytes i.toData f d).vals j.toData := by
    intro j; rw [dataOf_abs', habs]
  have hi : t.abs.vals i.toData = t.dataOf i := (dataOf_abs' t i).symm
  cases hk : (t.dataOf i).findIdx? Data.isBytes with
  | some k =>
    have hm := modify_first f (t.dataOf i) k hk
    have hv : ∀ j : Ident, t'.dataOf j
        = if j.toData = i.toData then (t.dataOf i).modify k (Data.modBytes f) else t.dataOf j := by
      intro j
      rw [hd, OMap.firstBytes, hi, hk]
      simp only [OMap.upd, dataOf_abs' t j]
    refine ⟨?_, ?_, ?_⟩
    · rw [Tag.bytesOf, hv i, if_pos rfl, hm.1, Tag.bytesOf]
      cases h : (t.dataOf i).filterMap Data.bytes? with
      | nil => exact absurd h hm.2.2
      | cons v r => rfl
    · intro j hj; rw [hv j, if_neg hj]
    · intro _; rw [hv i, if_pos rfl]; exact hm.2.1
  | none =>
    have he : t.bytesOf i = [] := by
      simp only [Tag.bytesOf, List.filterMap_eq_nil_iff]
      rw [List.findIdx?_eq_none_iff] at hk
      intro x hx
      have := hk x hx
      rw [isBytes_iff] at this
      simpa using this
    have hv : ∀ j : Ident, t'.dataOf j = if j.toData = i.toData then [d] else t.dataOf j := by
      intro j
      rw [hd, OMap.firstBytes, hi, hk]
      simp only [OMap.put, OMap.upd, dataOf_abs' t j]
    refine ⟨?_, ?_, ?_⟩
    · rw [Tag.bytesOf, hv i, if_pos rfl, he]
      cases d <;> rfl
    · intro j hj; rw [hv j, if_neg hj]
    · intro h; exact absurd he h

theorem beInt_setBeInt_after (v : Bytes) (i n s j k : Nat) (h : i + s ≤ j) (hk : 0 < k) :
    beInt (setBeInt v i n s) j k = beInt v j k := by
  have hl := setBeInt_length v i n s
  simp only [beInt, hl]
  by_cases hv : v.length < j + k
  · rw [if_pos (by omega), if_pos hv]
  · rw [if_neg (by omega), if_neg hv, setBeInt_eq, padTo_of_le v (i + s) (by omega)]
    have hti : (v.take i ++ toBe s n).length = i + s := by simp; omega
    rw [List.drop_append, hti, List.drop_of_length_le (by omega), List.nil_append, List.drop_drop]
    have : i + s + (j - (i + s)) = j := by omega
    rw [this]

theorem beInt_setBeInt_before (v : Bytes) (i n s j k : Nat) (h : j + k ≤ i) :
    beInt (setBeInt v i n s) j k = beInt (padTo v (i + s)) j k := by
  have hl := setBeInt_length v i n s
  have hp := padTo_length v (i + s)
  simp only [beInt, hl, hp]
  split
  · rfl
  · rw [setBeInt_eq, List.append_assoc]
    have hti : ((padTo v (i + s)).take i).length = i := by simp [hp]; omega
    rw [List.drop_append, hti, List.take_append]
    have h1 : k - (((padTo v (i + s)).take i).drop j).length = 0 := by
      rw [List.length_drop, hti]; omega
    rw [h1, List.take_zero, List.append_nil, List.drop_take, List.take_take]
    rw [Nat.min_eq_left (by omega)]

theorem beInt_padTo (v : Bytes) (n j k : Nat) (h : j + k ≤ v.length) :
    beInt (padTo v n) j k = beInt v j k := by
  have hp := padTo_length v n
  simp only [beInt, hp]
  rw [if_neg (by omega), if_neg (by omega), padTo, List.drop_append, List.take_append]
  have h1 : k - (v.drop j).length = 0 := by simp; omega
  rw [h1, List.take_zero, List.append_nil]

end Mp4
