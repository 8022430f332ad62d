import Verif.Props.Write
/-
The sample files of /repo/files are well-formed in the sense of Spec/Layout.lean with chunk offset tables as in Spec/Update.lean, so
the theorems about well-formed files apply to them; saving does to them what Spec/Update.lean says; and the chunk offsets point to the
same bytes afterwards. Evaluated, and no proof. The build only compiles it. Run in /verif/lean:

    echo 'import Verif.Check.Samples #eval Mp4.Samples.run "/repo/files"' | lake env lean --stdin
-/
namespace Mp4.Samples
open Mp4 Spec

def number (b : Bytes) : Nat := b.foldl (fun n x => 256 * n + x.toNat) 0

/-- Split into atoms. -/
def split : Nat → Bytes → Option (List Box)
  | 0, _ => none
  | fuel + 1, b =>
  if b.isEmpty then some [] else if b.length < 8 then none else
  let n := number (b.take 4)
  match (b.drop 4).take 4 with
  | [x, y, z, w] =>
    let ext := n == 1
    let hd := if ext then 16 else 8
    let len := if ext then number ((b.drop 8).take 8) else n
    if len < hd || b.length < len then none else
    match split fuel (b.drop len) with
    | some r => some (⟨ext, ⟨x, y, z, w⟩, (b.take len).drop hd⟩ :: r)
    | none => none
  | _ => none

def boxes : Bytes → Option (List Box) := split 10000

def kids {α : Type} (fc : Fourcc) (p : Bytes → Option α) (b : Bytes) : Option (List (Kid α)) := do
  (← boxes b).mapM fun x => if x.fc = fc then do return .node x.ext (← p x.body) else some (.raw x)

def stbl (b : Bytes) : Option Stbl := boxes b
def minf : Bytes → Option Minf := kids (cc 's' 't' 'b' 'l') stbl
def mdia : Bytes → Option Spec.Mdia := kids (cc 'm' 'i' 'n' 'f') minf
def trak : Bytes → Option Spec.Trak := kids (cc 'm' 'd' 'i' 'a') mdia
def metaOf (b : Bytes) : Option Meta :=
  if b.head? = some 0 ∧ 4 ≤ b.length then do return ⟨(b.drop 1).take 3, ← boxes (b.drop 4)⟩ else none
def udta : Bytes → Option Udta := kids (cc 'm' 'e' 't' 'a') metaOf
def moov (b : Bytes) : Option Spec.Moov := do
  (← boxes b).mapM fun x =>
    if x.fc = cc 't' 'r' 'a' 'k' then do return .trak x.ext (← trak x.body)
    else if x.fc = cc 'u' 'd' 't' 'a' then do return .udta x.ext (← udta x.body)
    else some (.raw x)

def file (b : Bytes) : Option File := do
  let bs ← boxes b
  let first ← bs.head?
  let s ← String.fromUTF8? ⟨first.body.toArray⟩
  let isMoov := fun x : Box => x.fc = cc 'm' 'o' 'o' 'v'
  let pre := bs.tail.takeWhile fun x => !isMoov x
  let rest := bs.tail.dropWhile fun x => !isMoov x
  let m ← rest.head?
  return { ftypExt := first.ext, ftyp := s.toList, pre, moovExt := m.ext, moov := ← moov m.body, post := rest.tail }

def nodes {α : Type} (l : List (Kid α)) : List α := l.filterMap Kid.sel

def stbls (f : File) : List Stbl :=
  f.moov.flatMap fun
    | .trak _ t => (nodes t).flatMap fun a => (nodes a).flatMap nodes
    | _ => []

def tables (f : File) : List (Nat × Bytes) :=
  (stbls f).flatMap fun s => s.filterMap fun b =>
    if b.fc = cc 's' 't' 'c' 'o' then some (4, b.body) else if b.fc = cc 'c' 'o' '6' '4' then some (8, b.body) else none

/-- `TableWF` -/
def tableOk (t : Nat × Bytes) : Bool :=
  t.2.head? == some 0 && t.2.length == 8 + t.1 * number ((t.2.drop 4).take 4) && (offsets t.1 t.2).all fun o => o < 2^62

def run (dir : String) : IO Bool := do
  let e : Env := { checked := true, fuel := 10000000, maxPos := 2^63 - 1, cap := 8192, rcur := fun _ => 0 }
  let mut ok := true
  for n in ["sample.m4a", "sample-multi-data.m4a", "sample-64.mp4", "sample-multi-track.3gp"] do
    let F := (← IO.FS.readBinFile (dir ++ "/" ++ n)).toList
    match file F with
    | none => IO.println s!"{n}: not well-formed"; ok := false
    | some f =>
      let same := f.ser == F
      let wf := decide f.WF
      let tabs := (tables f).all tableOk
      let offs (f : File) := (tables f).flatMap fun t => offsets t.1 t.2
      let size := (offs f).length
      let mut saved := true
      let mut media := true
      for atoms in [[], Props.atomsW, (List.range 40).map fun i => ⟨.fourcc ⟨1, 2, 3, UInt8.ofNat i⟩, [.utf8 "some text".toList]⟩] do
        let (_, G) := writeTag e F 0 { atoms }
        let g := f.put atoms
        saved := saved && g.ser == G
        let A := F.toArray
        let B := G.toArray
        media := media && (offs f).length == (offs g).length &&
          ((offs f).zip (offs g)).all fun (o, p) => o < A.size && A.extract o (o + 16) == B.extract p (p + 16)
      IO.println s!"{n}: {F.length} bytes, serialized {same}, well-formed {wf}, tables {tabs} ({size} offsets), media behind moov {decide f.MediaBehind}, saved as specified {saved}, chunks kept {media}"
      ok := ok && same && wf && tabs && saved && media
  return ok

end Mp4.Samples
