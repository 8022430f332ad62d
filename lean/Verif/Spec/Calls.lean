import Verif.Spec.Reader
import Verif.Spec.Layout
/-
How often a reader is called.
-/
namespace Mp4.Spec

/-- The number of calls among the first `n` that are not interrupted (and hence not repeated by std). -/
def busy (c : Sched) (n : Nat) : Nat := n - intrCount c n

/-- The number of places at which `mp4a` occurs. -/
def mp4aCount : Bytes → Nat
  | [] => 0
  | b :: F => (if (b :: F).take 4 = [0x6d, 0x70, 0x34, 0x61] then 1 else 0) + mp4aCount F

/-- A reader that returns as many bytes as are asked for, as far as there are so many. -/
def promptly : Sched := fun _ => .give (2^64)

/-- A length of less than 2^28 in four groups of seven bits, as in a descriptor. -/
def groups (d : Nat) : Bytes :=
  [UInt8.ofNat (128 + d / 2^21 % 128), UInt8.ofNat (128 + d / 2^14 % 128), UInt8.ofNat (128 + d / 2^7 % 128), UInt8.ofNat (d % 128)]

/-- An `mp4a` whose stream descriptor claims `d` bytes behind it, which it skips, and another `2 * m`. -/
def strideAtom (d m : Nat) : Bytes :=
  be32 61 ++ (cc 'm' 'p' '4' 'a').bytes ++ List.replicate 28 2 ++
  (be32 (8 + 4 + 5 + (3 + 5 + d + 2 * m)) ++ (cc 'e' 's' 'd' 's').bytes ++ [0, 2, 2, 2] ++
    (3 :: groups (3 + 5 + d + 2 * m)) ++ [2, 2, 2] ++ (9 :: groups d))

/-- `n` of them, the last of which ends where the `2 * m` bytes start. -/
def strideAtoms (m : Nat) : Nat → Bytes
  | 0 => []
  | n+1 => strideAtom (61 * n) m ++ strideAtoms m n

/-- An empty brand, a movie with a sample description of `n` such atoms, and `m` empty descriptors behind it. -/
def strideFile (n m : Nat) : Bytes :=
  be32 8 ++ (cc 'f' 't' 'y' 'p').bytes ++
  (be32 (56 + 61 * n) ++ (cc 'm' 'o' 'o' 'v').bytes ++ (be32 (48 + 61 * n) ++ (cc 't' 'r' 'a' 'k').bytes ++
  (be32 (40 + 61 * n) ++ (cc 'm' 'd' 'i' 'a').bytes ++ (be32 (32 + 61 * n) ++ (cc 'm' 'i' 'n' 'f').bytes ++
  (be32 (24 + 61 * n) ++ (cc 's' 't' 'b' 'l').bytes ++ (be32 (16 + 61 * n) ++ (cc 's' 't' 's' 'd').bytes ++
  ([0, 2, 2, 2, 2, 2, 2, 2] ++ (strideAtoms m n ++ List.replicate (2 * m) 0))))))))

end Mp4.Spec
