import Verif.Model.Reader
/-
One call of `write` or the several ones it takes if the file writes less than it is given.
-/
namespace Mp4.Spec
open Mp4

/-- The writes put the bytes `b` at `off`, one part after the other. -/
inductive Split : Nat → Bytes → List Op → Prop
  | one {off : Nat} {b : Bytes} (hb : b ≠ []) : Split off b [.write off b]
  | more {off : Nat} {a b : Bytes} {l : List Op} (ha : a ≠ []) (h : Split (off + a.length) b l) : Split off (a ++ b) (.write off a :: l)

/-- The second list is the first one with every write in one or more parts. -/
inductive Pieces : List Op → List Op → Prop
  | nil : Pieces [] []
  | setLen {A B : List Op} (n : Nat) (h : Pieces A B) : Pieces (A ++ [.setLen n]) (B ++ [.setLen n])
  | write {A B l : List Op} {off : Nat} {b : Bytes} (h : Pieces A B) (hs : Split off b l) : Pieces (A ++ [.write off b]) (B ++ l)

/-- How many of the first `n` calls are interrupted or fail. -/
def wasted (ws : Sched) (n : Nat) : Nat := (List.range n).countP fun k => match ws k with | .give _ => false | _ => true

end Mp4.Spec
