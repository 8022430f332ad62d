import Verif.Proof.Multi
import Verif.Props.Write
/-
C76: files with several movie atoms.
-/
namespace Mp4.Props
open Mp4 Spec

/-- Nothing but the existence of several movie atoms is out of the ordinary. -/
structure Movies.Writable (e : Env) (X : Bytes) (g : Movies) (atoms : List AtomData) : Prop where
  wf : g.WF
  fit : Fit e (X ++ g.ser)
  fit' : Fit e (X ++ (g.put atoms).ser)
  store : ∀ a ∈ atoms, Storable a
  old : (X ++ g.ser).length < 2^62
  new : (X ++ (g.put atoms).ser).length < 2^62
  tables : (∃ b ∈ g.post, b.fc = cc 'm' 'd' 'a' 't') → g.last.Tables

/-- **C76.** Writing succeeds and puts the items into the last movie atom. No operation touches anything in front of it. -/
theorem C76_write (e : Env) (X : Bytes) (g : Movies) (atoms : List AtomData) (h : Movies.Writable e X g atoms) :
    ∃ s, writeTagTo e (X ++ g.ser) X.length atoms = (.ok (), s) ∧ s.file = X ++ (g.put atoms).ser ∧
      ∀ op ∈ s.trace, X.length + (g.file.ser ++ serL (Kid.box (cc 'm' 'o' 'o' 'v') Moov.ser) g.mid).length ≤ op.lo :=
  writeTagTo_movies h.fit h.wf h.store h.old h.new h.fit'.pos h.tables

/-- **C76.** Reading returns the content of the first movie atom. -/
theorem C76_read (e : Env) (X Y : Bytes) (g : Movies) (t : Tag) (hF : Fit e (X ++ g.ser ++ Y)) (hw : g.file.WF)
    (hc : g.file.Content t) : readTag e (X ++ g.ser ++ Y) X.length = .ok t := by
  have := read_spec (e := e) (X := X) (f := g.file) (t := t)
    (Y := serL (Kid.box (cc 'm' 'o' 'o' 'v') Moov.ser) g.mid ++ g.byLast.moovBox.ser ++ serL id g.post ++ Y)
    (by simpa only [Movies.ser, List.append_assoc] using hF) hw hc
  simpa only [Movies.ser, List.append_assoc] using this

/-- **C76.** Hence, whatever is written: reading returns what it returned before. -/
theorem C76_unread (e : Env) (X : Bytes) (g : Movies) (u t : Tag) (h : Movies.Writable e X g u.atoms) (hc : g.file.Content t) :
    readTag e (X ++ g.ser) X.length = .ok t ∧
    ∃ F, writeTag e (X ++ g.ser) X.length u = (.ok (), F) ∧ readTag e F X.length = .ok t := by
  obtain ⟨s, h1, h2, -⟩ := C76_write e X g u.atoms h
  refine ⟨?_, s.file, by rw [writeTag, h1], ?_⟩
  · have := C76_read e X [] g t (by rw [List.append_nil]; exact h.fit) h.wf.1 hc
    rwa [List.append_nil] at this
  · rw [h2]
    have := C76_read e X [] (g.put u.atoms) t (by rw [List.append_nil]; exact h.fit') h.wf.1 hc
    rwa [List.append_nil] at this

/-- The file of C41 ff. with a second movie atom at the end. -/
def moviesEx : Movies := ⟨fileW, [], false, fileW.moov, []⟩

/-- The hypotheses hold. -/
example : Movies.Writable env0 [] moviesEx atomsW where
  wf := ⟨fileW_WF, fun _ h => absurd h (by simp [moviesEx]), fileW_WF.2.1, fileW_WF.2.2.1, fun _ h => absurd h (by simp [moviesEx])⟩
  fit := ⟨by decide +kernel, by decide +kernel, by decide +kernel⟩
  fit' := ⟨by decide +kernel, by decide +kernel, by decide +kernel⟩
  store := fun a ha => (atomsW_store a ha).1
  old := by decide +kernel
  new := by decide +kernel
  tables := fun _ => fileW_tables

/-- Writing reports success, the file is changed, the tag read is the old one. -/
example : (writeTag env0 moviesEx.ser 0 { atoms := [⟨.fourcc (cc '©' 'n' 'a' 'm'), [.utf8 ['n', 'e', 'w']]⟩] }).1 = .ok () ∧
    (writeTag env0 moviesEx.ser 0 { atoms := [⟨.fourcc (cc '©' 'n' 'a' 'm'), [.utf8 ['n', 'e', 'w']]⟩] }).2 ≠ moviesEx.ser ∧
    readTag env0 (writeTag env0 moviesEx.ser 0 { atoms := [⟨.fourcc (cc '©' 'n' 'a' 'm'), [.utf8 ['n', 'e', 'w']]⟩] }).2 0
      = readTag env0 moviesEx.ser 0 := by decide +kernel

end Mp4.Props
