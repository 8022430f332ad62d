import Verif.Spec.Offset
/-
Chunk offset tables that cannot be read, and how far adjusting chunk offsets gets with them.
-/
namespace Mp4.Spec

/-- The version is not 0, or the size does not match the number of entries. -/
def TableBad (w : Nat) (body : Bytes) : Prop :=
  body.head? ≠ some 0 ∨ body.length ≠ 8 + w * num ((body.drop 4).take 4)

instance (w : Nat) (body : Bytes) : Decidable (TableBad w body) := by unfold TableBad; infer_instance

/-- How this is reported. If the table is shorter than version, flags and number of entries, what is behind it is taken for them. -/
def TableErr (body : Bytes) (k : ErrKind) : Prop :=
  (8 ≤ body.length → k = if body.head? = some 0 then .parsing else .unknownVersion (body.headD 0)) ∧
  (k = .parsing ∨ ∃ v, v ≠ 0 ∧ k = .unknownVersion v)

/-- Only the offsets of the last `stco` are shifted. -/
def Stbl.shift32 (d : Int) (s : Stbl) : Stbl :=
  mapLast (fun b => if b.fc = cc 's' 't' 'c' 'o' then some ⟨b.ext, b.fc, mapOffsets 4 (shiftBy d) b.body⟩ else none) s

/-- The last `stco` is malformed. -/
def Stbl.Stuck32 (s : Stbl) (body : Bytes) : Prop :=
  (s.filterMap (Box.sel (cc 's' 't' 'c' 'o'))).getLast? = some body ∧ TableBad 4 body

/-- The last `stco`, if any, is well-formed, but the last `co64` is not. -/
def Stbl.Stuck64 (s : Stbl) (body : Bytes) : Prop :=
  (∀ body, (s.filterMap (Box.sel (cc 's' 't' 'c' 'o'))).getLast? = some body → TableWF 4 body) ∧
  (s.filterMap (Box.sel (cc 'c' 'o' '6' '4'))).getLast? = some body ∧ TableBad 8 body

/-- The last child of a kind. -/
def lastKid {α : Type} (ks : List (Kid α)) : Option α := (ks.filterMap Kid.sel).getLast?

/-- The sample table of a track. -/
def Trak.stbl (t : Trak) : Option Stbl := ((lastKid t).bind lastKid).bind lastKid

/-- Change the sample table of a track. -/
def Trak.mapStbl (g : Stbl → Stbl) (t : Trak) : Trak :=
  mapLast (Kid.mapNode (mapLast (Kid.mapNode (mapLast (Kid.mapNode g))))) t

/-- The first track with a malformed table, where `A` are the children of the movie atom in front of it, `body` is the content of
the table, and `m'` is the movie atom with the offsets adjusted that are in front of that table. -/
inductive Moov.Stuck (d : Int) (m : Moov) : Moov → Bytes → Prop
  | stco (A : List MoovKid) (ext : Bool) (t : Trak) (B : List MoovKid) (s : Stbl) (body : Bytes) :
    m = A ++ .trak ext t :: B → Moov.Tables A → t.stbl = some s → s.Stuck32 body →
    Moov.Stuck d m (A.map (MoovKid.mapTrak (Trak.shift d)) ++ .trak ext t :: B) body
  | co64 (A : List MoovKid) (ext : Bool) (t : Trak) (B : List MoovKid) (s : Stbl) (body : Bytes) :
    m = A ++ .trak ext t :: B → Moov.Tables A → t.stbl = some s → s.Stuck64 body →
    Moov.Stuck d m (A.map (MoovKid.mapTrak (Trak.shift d)) ++ .trak ext (t.mapStbl (Stbl.shift32 d)) :: B) body

/-- 64 bit chunk offsets are below 2^62. -/
def Moov.Low (m : Moov) : Prop := ∀ ext t, MoovKid.trak ext t ∈ m → ∀ o ∈ t.chunks64, o < 2^62

end Mp4.Spec
