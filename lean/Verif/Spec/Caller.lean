import Verif.Model.Caller
/-
Asking the caller about values, one after the other.
-/
namespace Mp4.Spec

/-- The values are asked about in order, each of them once, until the caller panics: the answers, whether the caller panicked, and its
state afterwards. -/
def ask {σ α} (p : Caller σ α) : List α → σ → List Bool × Bool × σ
  | [], s => ([], false, s)
  | x :: xs, s =>
    match p x s with
    | (some b, s') => (b :: (ask p xs s').1, (ask p xs s').2)
    | (none, s') => ([], true, s')

/-- Values with the answer `false` are removed; values without an answer stay. -/
def keepBy {α} : List Bool → List α → List α
  | b :: bs, x :: xs => if b then x :: keepBy bs xs else keepBy bs xs
  | _, xs => xs

/-- What the functions for one kind do: the caller is asked about the values of the kind only, once and in order; the other values
stay. `v` is the view, `r` the result, `l` and `l'` the values before and after. -/
def KindRun {σ α β} (v : α → Option β) (p : Caller σ β) (s : σ) (l l' : List α) (r : Bool × σ) : Prop :=
  r = (ask p (l.filterMap v) s).2 ∧ l'.filterMap v = keepBy (ask p (l.filterMap v) s).1 (l.filterMap v) ∧
    l'.filter (fun x => (v x).isNone) = l.filter fun x => (v x).isNone

/-- A view of values together with their identifiers. -/
def withIdent {β} (v : Data → Option β) (x : DataIdent × Data) : Option (DataIdent × β) := (v x.2).map fun b => (x.1, b)

end Mp4.Spec
