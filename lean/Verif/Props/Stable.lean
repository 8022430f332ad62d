import Verif.Proof.Stable
import Verif.Props.Errors
import Verif.Props.Write
/-
C75: what a build with overflow checks returns, the build without them returns, too.
-/
namespace Mp4.Props
open Mp4 Spec

/-- The same machine, with the program built without overflow checks. -/
def release (e : Env) : Env := { e with checked := false }

/-- The same machine, observed for `n` iterations of every loop. -/
def upTo (n : Nat) (e : Env) : Env := { e with fuel := n }

theorem le_release {e : Env} (hc : e.checked = true) : e.LeW (release e) := ⟨⟨Nat.le_refl _, fun _ => hc, rfl⟩, rfl, rfl⟩
theorem le_upTo {e : Env} {n : Nat} (hn : e.fuel ≤ n) : e.LeW (upTo n e) := ⟨⟨hn, id, rfl⟩, rfl, rfl⟩

/-- **C75.** Reading arbitrary bytes: a tag or error returned by the build with overflow checks is the one returned by the
build without. -/
theorem C75_read (e : Env) (F : Bytes) (p : Nat) (hc : e.checked = true) (hf : 2^61 < e.fuel) (h : readTag e F p ≠ .panic) :
    readTag (release e) F p = readTag e F p := by
  have hn : readTag e F p ≠ .fuel := by
    have h := Term.readTagP hc hf F p
    rw [readTag]
    cases hr : readTagP e F p with
    | fuel => exact absurd hr h
    | _ => simp [Out.val]
  rcases readTag_stable (le_release hc).toLe F p with h' | h' | h'
  · exact absurd h'.1 h
  · exact absurd h' hn
  · exact h'

/-- **C75.** Writing any tag to a file with arbitrary content: if the build with overflow checks does not panic, both builds
report the same, issue the same calls in the same order (`trace`) and leave the same file. -/
theorem C75_write (e : Env) (F : Bytes) (p : Nat) (t : Tag) (hc : e.checked = true) (hf : 2^61 < e.fuel)
    (h : (writeTagTo e F p t.atoms).1 ≠ .panic) :
    (writeTagTo (release e) F p t.atoms).1 = (writeTagTo e F p t.atoms).1 ∧
    (writeTagTo (release e) F p t.atoms).2.trace = (writeTagTo e F p t.atoms).2.trace ∧
    (writeTagTo (release e) F p t.atoms).2.file = (writeTagTo e F p t.atoms).2.file := by
  have hn := writeTagTo_nf hc hf F p t.atoms
  rcases writeTagTo_stable (le_release hc) F p t.atoms with h' | h' | h'
  · exact absurd h'.1 h
  · exact absurd h' hn
  · rw [h']; exact ⟨rfl, rfl, rfl⟩

/-- **C75.** Dumping any tag. -/
theorem C75_dump (e : Env) (t : Tag) (hc : e.checked = true) (h : (dumpTag e t).2 = .ok ()) :
    dumpTag (release e) t = dumpTag e t := by
  rcases dumpTag_stable (le_release hc).toLe t with h' | h' | h'
  · rw [h] at h'; cases h'.1
  · rw [h] at h'; cases h'
  · exact h'

/-- **C75.** In either build: an outcome (also a panic) that is there after some number of iterations of the loops does not
change if there may be more. The bound on the iterations, which the program does not have, is not observable. -/
theorem C75_iterations (e : Env) (F : Bytes) (p : Nat) (t : Tag) (n : Nat) (hn : e.fuel ≤ n) :
    (readTag e F p ≠ .fuel → readTag (upTo n e) F p = readTag e F p) ∧
    ((writeTagTo e F p t.atoms).1 ≠ .fuel → writeTagTo (upTo n e) F p t.atoms = writeTagTo e F p t.atoms) := by
  constructor
  · intro h
    rcases readTag_stable (le_upTo hn).toLe F p with h' | h' | h'
    · exact absurd rfl h'.2
    · exact absurd h' h
    · exact h'
  · intro h
    rcases writeTagTo_stable (le_upTo hn) F p t.atoms with h' | h' | h'
    · exact absurd rfl h'.2
    · exact absurd h' h
    · exact h'

/-- **C75.** Hence any two numbers of iterations after which there is an outcome lead to the same. -/
theorem C75_determined (e : Env) (F : Bytes) (p n m : Nat) (hn : readTag (upTo n e) F p ≠ .fuel)
    (hm : readTag (upTo m e) F p ≠ .fuel) : readTag (upTo n e) F p = readTag (upTo m e) F p := by
  rcases Nat.le_total n m with h | h
  · exact ((C75_iterations (upTo n e) F p {} m h).1 hn).symm
  · exact (C75_iterations (upTo m e) F p {} n h).1 hm

/-- `r` is the result of an operation whose exact result is `x`, on integers from `lo` up to (not including) `lo + 2^w`: a panic if
overflows are checked and `x` is out of range; otherwise the only integer in the range that differs from `x` by a multiple of `2^w`. -/
def Machine (checked : Bool) (w : Nat) (lo x : Int) (r : Out Int) : Prop :=
  (r = .panic ∧ checked = true ∧ ¬ (lo ≤ x ∧ x < lo + 2^w)) ∨
  (∃ y k : Int, r = .ok y ∧ lo ≤ y ∧ y < lo + 2^w ∧ y = x + k * 2^w ∧ (checked = true → k = 0))

/-- A result without sign. -/
def unsigned (r : Out Nat) : Out Int :=
  match r with
  | .ok n => .ok n
  | .err k => .err k
  | .panic => .panic
  | .fuel => .fuel

/-- **C75.** The integer arithmetic of both builds is that of the machine. -/
theorem C75_arithmetic (e : Env) :
    (∀ a b : Nat, a < 2^64 → b < 2^64 → Machine e.checked 64 0 (a + b) (unsigned (addU a b e)) ∧
      Machine e.checked 64 0 (a - b) (unsigned (subU a b e)) ∧ Machine e.checked 64 0 (a * b) (unsigned (mulU a b e))) ∧
    (∀ a b : Nat, a < 2^32 → b < 2^32 → Machine e.checked 32 0 (a + b) (unsigned (addU32 a b e))) ∧
    (∀ a b : Int, Machine e.checked 64 (-2^63) (a + b) (addI a b e) ∧ Machine e.checked 64 (-2^63) (a - b) (subI a b e)) ∧
    (∀ n : Nat, n < 2^64 → Machine false 64 (-2^63) n (.ok (asI64 n))) ∧
    (∀ n : Int, Machine false 64 0 n (.ok (asU64 n)) ∧ Machine false 32 0 n (.ok (asU32 n))) := by
  refine ⟨fun a b ha hb => ⟨?_, ?_, ?_⟩, fun a b ha hb => ?_, fun a b => ⟨?_, ?_⟩, fun n hn => ?_, fun n => ⟨?_, ?_⟩⟩
  · unfold addU
    split
    · exact .inr ⟨a + b, 0, by simp [unsigned], by omega, by omega, by omega, fun _ => rfl⟩
    · split
      · exact .inl ⟨rfl, ‹_›, by omega⟩
      · refine .inr ⟨((a + b) % 2^64 : Nat), -1, rfl, by omega, by omega, by omega, fun h => absurd h ‹_›⟩
  · unfold subU
    split
    · exact .inr ⟨(a - b : Nat), 0, by simp [unsigned], by omega, by omega, by omega, fun _ => rfl⟩
    · split
      · exact .inl ⟨rfl, ‹_›, by omega⟩
      · refine .inr ⟨(2^64 + a - b : Nat), 1, rfl, by omega, by omega, by omega, fun h => absurd h ‹_›⟩
  · unfold mulU
    have hm : ((a : Int) * b) = ((a * b : Nat) : Int) := by simp
    rw [hm]
    generalize a * b = x
    split
    · exact .inr ⟨x, 0, by simp [unsigned], by omega, by omega, by omega, fun _ => rfl⟩
    · split
      · exact .inl ⟨rfl, ‹_›, by omega⟩
      · refine .inr ⟨(x % 2^64 : Nat), -(x / 2^64 : Nat), rfl, by omega, by omega, by omega, fun h => absurd h ‹_›⟩
  · unfold addU32
    split
    · exact .inr ⟨a + b, 0, by simp [unsigned], by omega, by omega, by omega, fun _ => rfl⟩
    · split
      · exact .inl ⟨rfl, ‹_›, by omega⟩
      · refine .inr ⟨((a + b) % 2^32 : Nat), -1, rfl, by omega, by omega, by omega, fun h => absurd h ‹_›⟩
  · unfold addI
    split
    · exact .inr ⟨a + b, 0, rfl, by omega, by omega, by omega, fun _ => rfl⟩
    · split
      · exact .inl ⟨rfl, ‹_›, by omega⟩
      · refine .inr ⟨wrapI64 (a + b), -((a + b + 2^63) / 2^64), rfl, ?_, ?_, ?_, fun h => absurd h ‹_›⟩ <;> unfold wrapI64 <;> omega
  · unfold subI
    split
    · exact .inr ⟨a - b, 0, rfl, by omega, by omega, by omega, fun _ => rfl⟩
    · split
      · exact .inl ⟨rfl, ‹_›, by omega⟩
      · refine .inr ⟨wrapI64 (a - b), -((a - b + 2^63) / 2^64), rfl, ?_, ?_, ?_, fun h => absurd h ‹_›⟩ <;> unfold wrapI64 <;> omega
  · refine .inr ⟨asI64 n, if n < 2^63 then 0 else -1, rfl, ?_, ?_, ?_, fun h => by cases h⟩ <;> unfold asI64 <;> split <;> omega
  · refine .inr ⟨asU64 n, -(n / 2^64), rfl, ?_, ?_, ?_, fun h => by cases h⟩ <;> unfold asU64 <;> omega
  · refine .inr ⟨asU32 n, -(n / 2^32), rfl, ?_, ?_, ?_, fun h => by cases h⟩ <;> unfold asU32 <;> omega

/-- **C75.** There is only one such result. -/
theorem C75_machine_unique {checked : Bool} {w : Nat} {lo x : Int} {r s : Out Int} (hr : Machine checked w lo x r) (hs : Machine checked w lo x s) :
    r = s := by
  have key : ∀ a b k l W : Int, 0 < W → lo ≤ a → a < lo + W → lo ≤ b → b < lo + W → a = x + k * W → b = x + l * W → a = b := by
    intro a b k l W hW h1 h2 h3 h4 h5 h6
    have hd : a - b = (k - l) * W := by rw [Int.sub_mul]; omega
    rcases Int.lt_trichotomy (k - l) 0 with h | h | h
    · have := Int.mul_le_mul_of_nonneg_right (show k - l ≤ -1 by omega) (Int.le_of_lt hW)
      omega
    · rw [h, Int.zero_mul] at hd; omega
    · have := Int.mul_le_mul_of_nonneg_right (show 1 ≤ k - l by omega) (Int.le_of_lt hW)
      omega
  have hW : (0 : Int) < 2^w := Int.pow_pos (by omega)
  rcases hr with ⟨rfl, hc, hx⟩ | ⟨a, k, rfl, h1, h2, h3, h4⟩ <;> rcases hs with ⟨rfl, hc', hx'⟩ | ⟨b, l, rfl, g1, g2, g3, g4⟩
  · rfl
  · have := g4 hc
    subst this
    rw [Int.zero_mul, Int.add_zero] at g3
    subst g3
    exact absurd ⟨g1, g2⟩ hx
  · have := h4 hc'
    subst this
    rw [Int.zero_mul, Int.add_zero] at h3
    subst h3
    exact absurd ⟨h1, h2⟩ hx'
  · rw [key a b k l _ hW h1 h2 g1 g2 h3 g3]

/-- The largest `u64` plus one; the smallest `i64` minus one. -/
example : addU (2^64 - 1) 1 env0 = .panic ∧ addU (2^64 - 1) 1 (release env0) = .ok 0 ∧ subI (-2^63) 1 env0 = .panic ∧
    subI (-2^63) 1 (release env0) = .ok (2^63 - 1) ∧ asI64 (2^64 - 5) = -5 ∧ asU32 (-1) = 2^32 - 1 := by decide +kernel

/-- The file of C41 ff. and a random looking one: the same in both builds. -/
example : (match readTag env0 fileW.ser 0 with | .ok t => !t.atoms.isEmpty | _ => false) = true ∧ readTag (release env0) fileW.ser 0 = readTag env0 fileW.ser 0 ∧
    readTag (release env0) (fileW.ser.drop 40) 0 = readTag env0 (fileW.ser.drop 40) 0 :=
  ⟨by decide +kernel, by decide +kernel, by decide +kernel⟩

/-- A movie header whose duration times 10^9 exceeds 64 bits. -/
def longMovie : Bytes :=
  (⟨false, cc 'f' 't' 'y' 'p', []⟩ : Box).ser ++ (⟨false, cc 'm' 'o' 'o' 'v', (⟨false, cc 'm' 'v' 'h' 'd',
    1 :: [0, 0, 0] ++ List.replicate 16 3 ++ be32 1 ++ be64 (2^40)⟩ : Box).ser⟩ : Box).ser

/-- The exclusion of panics is necessary: without overflow checks there is a tag, with a wrong duration. -/
example : readTag env0 longMovie 0 = .panic ∧
    readTag (release env0) longMovie 0 = .ok { info := { duration := some (2^40 * 10^9 % 2^64) } } := by decide +kernel

end Mp4.Props
