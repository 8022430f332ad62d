import Verif.Model.Ops
import Verif.Model.Write
/-
Editing a file in several sittings.
-/
namespace Mp4.Spec
open Mp4

/-- One sitting: the tag is read from the file, the calls are made, and the tag is saved to the file. `none` if one of these
fails. -/
def sitting (e : Env) (pos : Nat) (F : Bytes) (p : List TagOp) : Option Bytes :=
  match readTag e F pos with
  | .ok v =>
    match writeTag e F pos (runOps p v) with
    | (.ok (), F') => some F'
    | _ => none
  | _ => none

/-- One sitting after the other. -/
def sittings (e : Env) (pos : Nat) (F : Bytes) : List (List TagOp) → Option Bytes
  | [] => some F
  | p :: ps => (sitting e pos F p).bind fun F' => sittings e pos F' ps

end Mp4.Spec
