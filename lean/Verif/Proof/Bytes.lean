import Verif.Model.Tag
/-
Big endian integers and byte lists.
-/
namespace Mp4

@[simp] theorem toBe_length (k n : Nat) : (toBe k n).length = k := by
  induction k generalizing n with
  | zero => rfl
  | succ k ih => simp [toBe, ih]

theorem beNat_snoc (b : Bytes) (x : UInt8) : beNat (b ++ [x]) = beNat b * 256 + x.toNat := by
  simp [beNat]

theorem beNat_nil : beNat [] = 0 := rfl

theorem beNat_toBe (k n : Nat) : beNat (toBe k n) = n % 256 ^ k := by
  induction k generalizing n with
  | zero => simp [toBe, beNat, Nat.mod_one]
  | succ k ih =>
    rw [toBe, beNat_snoc, ih]
    have h1 : (UInt8.ofNat (n % 256)).toNat = n % 256 := by
      rw [UInt8.toNat_ofNat']; omega
    rw [h1, Nat.pow_succ, Nat.mul_comm (256 ^ k) 256, Nat.mod_mul]
    omega

theorem beNat_toBe_of_lt (k n : Nat) (h : n < 256 ^ k) : beNat (toBe k n) = n := by
  rw [beNat_toBe, Nat.mod_eq_of_lt h]

theorem beNat_append (a b : Bytes) : beNat (a ++ b) = beNat a * 256 ^ b.length + beNat b := by
  induction b generalizing a with
  | nil => simp [beNat]
  | cons x b ih =>
    have h1 := ih (a ++ [x])
    have h2 := ih [x]
    simp only [List.append_assoc, List.singleton_append] at h1 h2
    have h3 : beNat [x] = x.toNat := by simp [beNat]
    rw [h1, h2, beNat_snoc, h3, List.length_cons, Nat.pow_succ, Nat.add_mul]
    have : beNat a * 256 * 256 ^ b.length = beNat a * (256 ^ b.length * 256) := by
      rw [Nat.mul_assoc, Nat.mul_comm 256]
    omega

theorem beNat_cons (x : UInt8) (b : Bytes) : beNat (x :: b) = x.toNat * 256 ^ b.length + beNat b := by
  have := beNat_append [x] b
  simpa [beNat] using this

theorem beNat_lt (b : Bytes) : beNat b < 256 ^ b.length := by
  induction b with
  | nil => simp [beNat]
  | cons x b ih =>
    rw [beNat_cons, List.length_cons, Nat.pow_succ]
    have hx := x.toNat_lt
    have : x.toNat * 256 ^ b.length ≤ 255 * 256 ^ b.length := Nat.mul_le_mul_right _ (by omega)
    omega

theorem toBe_beNat (b : Bytes) : toBe b.length (beNat b) = b := by
  have key : ∀ (k : Nat) (b : Bytes), b.length = k → toBe k (beNat b) = b := by
    intro k
    induction k with
    | zero => intro b hb; rw [List.length_eq_zero_iff] at hb; subst hb; rfl
    | succ k ih =>
      intro b hb
      have hne : b ≠ [] := by intro h; simp [h] at hb
      have hd := List.dropLast_concat_getLast hne
      have hlen : b.dropLast.length = k := by simp [hb]
      rw [← hd, toBe, beNat_snoc]
      have hx := (b.getLast hne).toNat_lt
      have h1 : (beNat b.dropLast * 256 + (b.getLast hne).toNat) / 256 = beNat b.dropLast := by omega
      have h2 : (beNat b.dropLast * 256 + (b.getLast hne).toNat) % 256 = (b.getLast hne).toNat := by omega
      rw [h1, h2, ih _ hlen]
      simp
  exact key _ _ rfl

theorem setBytesAt_eq (b : Bytes) (i : Nat) (xs : Bytes) (h : i + xs.length ≤ b.length) :
    setBytesAt b i xs = b.take i ++ xs ++ b.drop (i + xs.length) := by
  induction xs generalizing b i with
  | nil => simp [setBytesAt]
  | cons x xs ih =>
    simp only [List.length_cons] at h
    rw [setBytesAt, ih _ _ (by simp; omega)]
    have hs : b.set i x = b.take i ++ x :: b.drop (i + 1) := by
      rw [List.set_eq_take_append_cons_drop]; simp; omega
    rw [hs]
    have hl : (b.take i).length = i := by simp; omega
    have h1 : (b.take i ++ x :: b.drop (i + 1)).take (i + 1) = b.take i ++ [x] := by
      rw [List.take_append, hl]
      have : i + 1 - i = 1 := by omega
      rw [this, List.take_of_length_le (by omega)]; simp
    have h2 : (b.take i ++ x :: b.drop (i + 1)).drop (i + 1 + xs.length) = b.drop (i + (xs.length + 1)) := by
      rw [List.drop_append, hl]
      have : i + 1 + xs.length - i = xs.length + 1 := by omega
      rw [this, List.drop_of_length_le (by omega)]
      simp only [List.drop_succ_cons, List.drop_drop, List.nil_append]
      congr 1; omega
    rw [h1, h2]
    simp

/-- Zero padding to a minimal length. -/
def padTo (v : Bytes) (n : Nat) : Bytes := v ++ List.replicate (n - v.length) 0

theorem padTo_length (v n) : (padTo v n).length = max v.length n := by
  simp [padTo]; omega

theorem padTo_of_le (v n) (h : n ≤ v.length) : padTo v n = v := by
  have : n - v.length = 0 := by omega
  simp [padTo, this]

theorem setBeInt_eq (v : Bytes) (i n s : Nat) :
    setBeInt v i n s = (padTo v (i + s)).take i ++ toBe s n ++ (padTo v (i + s)).drop (i + s) := by
  have h0 : (if v.length < i + s then v ++ List.replicate (i + s - v.length) 0 else v) = padTo v (i + s) := by
    split
    · rfl
    · rw [padTo_of_le]; omega
  simp only [setBeInt, h0]
  rw [setBytesAt_eq _ _ _ (by simp [padTo_length]; omega)]
  simp

theorem setBeInt_length (v : Bytes) (i n s : Nat) : (setBeInt v i n s).length = max v.length (i + s) := by
  rw [setBeInt_eq]
  have := padTo_length v (i + s)
  simp [this]; omega

theorem beInt_setBeInt (v : Bytes) (i n s : Nat) (h : n < 256 ^ s) : beInt (setBeInt v i n s) i s = some n := by
  have hl := setBeInt_length v i n s
  have hp := padTo_length v (i + s)
  have hti : ((padTo v (i + s)).take i).length = i := by simp [hp]; omega
  rw [beInt, if_neg (by omega), setBeInt_eq, List.append_assoc, List.drop_left' hti,
    List.take_left' (by simp), beNat_toBe_of_lt _ _ h]

end Mp4
