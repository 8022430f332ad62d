import Verif.Model.Types
/-!
# Delivering a text to a formatter

`write` is the `write_str` of the receiving side: it accepts a piece of text or fails, and changes a state of any type.
-/
namespace Mp4.Spec
open Mp4

/-- The pieces are passed on in turn and all accepted. -/
inductive Accepts {σ : Type} (write : Str → σ → Bool × σ) : σ → List Str → σ → Prop where
  | nil {s} : Accepts write s [] s
  | cons {s s1 s2 p ps} : write p s = (true, s1) → Accepts write s1 ps s2 → Accepts write s (p :: ps) s2

/-- The text is delivered: in some pieces, in order, completely and once if all of them are accepted; otherwise up to the first piece
that is not accepted, which is the last one passed on, and then an error is returned. -/
def Delivers {σ : Type} (write : Str → σ → Bool × σ) (text : Str) (r : σ → Bool × σ) : Prop := ∀ s,
  (∃ ps s', Accepts write s ps s' ∧ ps.flatten = text ∧ r s = (true, s')) ∨
  (∃ ps p rest s1 s2, Accepts write s ps s1 ∧ write p s1 = (false, s2) ∧ ps.flatten ++ p ++ rest = text ∧ r s = (false, s2))

/-- A `String`: accepts everything. -/
def stringWrite (p : Str) (s : Str) : Bool × Str := (true, s ++ p)

/-- A buffer of limited size that fails if a piece does not fit; then it may keep a part of the piece. -/
def roomWrite (room : Nat) (keep : Str → Nat) (p : Str) (s : Str) : Bool × Str :=
  if s.length + p.length ≤ room then (true, s ++ p) else (false, s ++ p.take (min (keep p) (room - s.length)))

end Mp4.Spec
