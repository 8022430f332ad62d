import Verif.Spec.Written

/-!
# Bytes of chunk offset tables in arbitrary input
-/

namespace Mp4.Spec

/-- The length an atom at position `q` of arbitrary bytes claims to have. -/
def claimedLen (F : Bytes) (q : Nat) : Nat :=
  if num (bytesAt F q 4) = 1 then num (bytesAt F (q + 8) 8) else num (bytesAt F q 4)

/-- Position `i` is an entry byte of something that looks like a chunk offset table: behind the head, version, flags and number of
entries of an atom named `stco` or `co64`, and not behind its end. -/
def TableByte (F : Bytes) (i : Nat) : Prop :=
  ∃ q, (bytesAt F (q + 4) 4 = (cc 's' 't' 'c' 'o').bytes ∨ bytesAt F (q + 4) 4 = (cc 'c' 'o' '6' '4').bytes) ∧
    q + 16 ≤ i ∧ i < q + claimedLen F q ∧ i < F.length

/-- Nothing but entries of chunk offset tables is different, and the length is the same. -/
def OnlyTables (F F' : Bytes) : Prop :=
  F'.length = F.length ∧ ∀ i, ¬ TableByte F i → F'[i]? = F[i]?

end Mp4.Spec
