import Verif.Spec.Content
/-
Conditions on arbitrary byte strings, for the claims about input that is not a well-formed file. They speak about
every place where the bytes of an atom head occur, whether or not a parser ever looks there.
-/
namespace Mp4.Spec

/-- The bytes of the head of an atom of `n` bytes, including the head. -/
def headBytes (ext : Bool) (fc : Fourcc) (n : Nat) : Bytes :=
  if ext then be32 1 ++ fc.bytes ++ be64 n else be32 n ++ fc.bytes

/-- The length of a head. -/
def hlen (ext : Bool) : Nat := if ext then 16 else 8

/-- At some place of `F` there is the head of an atom `fc` of `n` bytes, then `rest`. -/
def HeadIn (F : Bytes) (ext : Bool) (fc : Fourcc) (n : Nat) (rest : Bytes) : Prop :=
  n < (if ext then 2^64 else 2^32) ∧ ∃ A, F = A ++ headBytes ext fc n ++ rest

/-- No 64 bit size is smaller than the head it is part of, or 2^63 or more. -/
def SaneSizes (F : Bytes) : Prop := ∀ fc n rest, HeadIn F true fc n rest → 16 ≤ n ∧ n < 2^63

/-- No value atom is too short for its version, flags and locale; no movie header has time scale 0. -/
def NoTrap (F : Bytes) : Prop :=
  (∀ ext n rest, HeadIn F ext (cc 'd' 'a' 't' 'a') n rest → hlen ext + 8 ≤ n) ∧
  (∀ ext n rest, HeadIn F ext (cc 'm' 'e' 'a' 'n') n rest → hlen ext + 4 ≤ n) ∧
  (∀ ext n rest, HeadIn F ext (cc 'n' 'a' 'm' 'e') n rest → hlen ext + 4 ≤ n) ∧
  (∀ ext n flags times t rest, HeadIn F ext (cc 'm' 'v' 'h' 'd') n (0 :: flags ++ times ++ be32 t ++ rest) →
    flags.length = 3 → times.length = 8 → t < 2^32 → t ≠ 0) ∧
  (∀ ext n flags times t rest, HeadIn F ext (cc 'm' 'v' 'h' 'd') n (1 :: flags ++ times ++ be32 t ++ rest) →
    flags.length = 3 → times.length = 16 → t < 2^32 → t ≠ 0)

/-- What builds with overflow checks insist on in addition: movie headers hold all their fields and no duration is
2^64 nanoseconds or more at time scale 1, and `mp4a` atoms are well-formed. -/
def NoOverflow (F : Bytes) : Prop :=
  (∀ ext n v rest, HeadIn F ext (cc 'm' 'v' 'h' 'd') n (v :: rest) → v = 0 ∨ v = 1 →
    hlen ext + (if v = 0 then 20 else 32) ≤ n) ∧
  (∀ ext n flags times scale d rest, HeadIn F ext (cc 'm' 'v' 'h' 'd') n (1 :: flags ++ times ++ scale ++ be64 d ++ rest) →
    flags.length = 3 → times.length = 16 → scale.length = 4 → d < 2^64 → d * 1000000000 < 2^64) ∧
  (∀ ext n rest, HeadIn F ext (cc 'm' 'p' '4' 'a') n rest →
    ∃ body rest' cs, rest = body ++ rest' ∧ n = hlen ext + body.length ∧ Mp4aBody body cs)

/-- No movie, user data, metadata or item list atom claims to extend beyond the end of the input. -/
def Contained (F : Bytes) : Prop :=
  ∀ ext fc n rest, fc ∈ [cc 'm' 'o' 'o' 'v', cc 'u' 'd' 't' 'a', cc 'm' 'e' 't' 'a', cc 'i' 'l' 's' 't'] →
    HeadIn F ext fc n rest → n ≤ hlen ext + rest.length

/-- There is no table of 64 bit chunk offsets. -/
def NoCo64 (F : Bytes) : Prop := ∀ ext n rest, ¬ HeadIn F ext (cc 'c' 'o' '6' '4') n rest

end Mp4.Spec
