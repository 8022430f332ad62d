import Verif.Model.Reader
/-
Readers that do not keep reading from finishing.
-/
namespace Mp4.Spec

/-- The number of interruptions in the first `n` calls. -/
def intrCount (c : Sched) (n : Nat) : Nat := ((List.range n).filter (c · = .intr)).length

/-- The iterations suffice for the data and the interruptions. -/
def Enough (c : Sched) (e : Env) (F : Bytes) : Prop := ∃ B, (∀ n, intrCount c n ≤ B) ∧ F.length + B < e.fuel

/-- A reader without errors and interruptions; it may return any number of bytes per call. -/
def NoFaults (c : Sched) : Prop := ∀ k, ∃ n, c k = .give n

end Mp4.Spec
