import Verif.Proof.Shadow
import Verif.Props.WriteMore
/-
C91: saving a tag with UTF-16 texts, the sizes of which are wrong (C27).
-/
namespace Mp4.Props
open Mp4 Spec

/-- **C91**, the part that holds: whatever the texts are, the result is that of saving values of the claimed sizes, except for the content
of the item list. It is cut at its claimed length; what is behind it is moved as usual. Missing: that nothing is added at the end (see
`C91_refuted`); what is added is that part of the surplus which is longer than everything behind the item list. -/
theorem C91_partial (e : Env) (X : Bytes) (f : File) (atoms : List AtomData) (hfit : ∀ a ∈ atoms, (entryOf a).box.Fits)
    (h : Writable e X f (atoms.map claimOf)) :
    ∃ s A B, writeTagTo e (X ++ f.ser) X.length atoms = (.ok (), s) ∧
      X ++ (f.put (atoms.map claimOf)).ser = X ++ f.ftypBox.ser ++ serL id f.pre ++ A ++ (ilstBox (atoms.map claimOf)).body ++ B ++ serL id f.post ∧
      s.file = X ++ f.ftypBox.ser ++ serL id f.pre ++ A ++ (listBytes atoms).take (listClaim atoms) ++ B ++ serL id f.post
        ++ (listBytes atoms).drop (listClaim atoms + (B ++ serL id f.post).length) ∧
      (∀ op ∈ s.trace, f.moovPos X.length ≤ op.lo) := by
  have hN : X ++ (f.put (atoms.map claimOf)).ser
      = X ++ f.ftypBox.ser ++ serL id f.pre ++ (f.put (atoms.map claimOf)).moovBox.ser ++ serL id f.post := by
    simp only [File.ser, List.append_assoc]; rfl
  have hn := h.new
  have hm := h.pos
  rw [hN] at hn hm
  obtain ⟨s, A, B, h1, h2, h3, -, h4, -⟩ := writeTagTo_over (real := atoms) rfl (T := serL id f.post)
    (by simp only [File.ser, List.append_assoc]) h.fit h.wf.2.2.1 (findTop_at h.fit h.wf rfl) hfit h.old hn hm h.tables
  refine ⟨s, A, B, h1, ?_, ?_, h4⟩
  · rw [hN, h2]
    simp only [List.append_assoc]
    rfl
  · rw [h3]
    simp only [List.append_assoc]

/-- **C91**: all other top level atoms are kept, in the same order and where they would be (compare C44). -/
theorem C91_media (e : Env) (X : Bytes) (f : File) (atoms : List AtomData) (hfit : ∀ a ∈ atoms, (entryOf a).box.Fits)
    (h : Writable e X f (atoms.map claimOf)) :
    ∃ s moov' more, writeTagTo e (X ++ f.ser) X.length atoms = (.ok (), s) ∧
      s.file = X ++ f.ftypBox.ser ++ serL id f.pre ++ moov' ++ serL id f.post ++ more ∧
      moov'.length = (f.put (atoms.map claimOf)).moovBox.ser.length ∧ more.length ≤ surplus atoms - (serL id f.post).length := by
  obtain ⟨s, A, B, h1, h2, h3, -⟩ := C91_partial e X f atoms hfit h
  refine ⟨s, A ++ (listBytes atoms).take (listClaim atoms) ++ B, (listBytes atoms).drop (listClaim atoms + (B ++ serL id f.post).length), h1, by rw [h3]; simp only [List.append_assoc], ?_, ?_⟩
  · have h4 := congrArg List.length h2
    have h5 : X ++ (f.put (atoms.map claimOf)).ser
        = X ++ f.ftypBox.ser ++ serL id f.pre ++ (f.put (atoms.map claimOf)).moovBox.ser ++ serL id f.post := by
      simp only [File.ser, List.append_assoc]; rfl
    rw [h5] at h4
    have h6 := listBytes_length atoms
    have h7 : (ilstBox (atoms.map claimOf)).body.length = listClaim atoms := rfl
    simp only [List.length_append, List.length_take, h7] at h4 ⊢
    omega
  · have h6 := listBytes_length atoms
    simp only [List.length_drop, List.length_append]
    omega

/-- **C91**: nothing is added if what follows the movie atom is at least as long as the surplus: one byte for each UTF-16 unit. -/
theorem C91_clean (e : Env) (X : Bytes) (f : File) (atoms : List AtomData) (hfit : ∀ a ∈ atoms, (entryOf a).box.Fits)
    (h : Writable e X f (atoms.map claimOf)) (hs : surplus atoms ≤ (serL id f.post).length) :
    ∃ s, writeTagTo e (X ++ f.ser) X.length atoms = (.ok (), s) ∧ s.file.length = (X ++ (f.put (atoms.map claimOf)).ser).length := by
  obtain ⟨s, m, r, h1, h2, h3, h4⟩ := C91_media e X f atoms hfit h
  refine ⟨s, h1, ?_⟩
  rw [h2]
  have h5 : X ++ (f.put (atoms.map claimOf)).ser
      = X ++ f.ftypBox.ser ++ serL id f.pre ++ (f.put (atoms.map claimOf)).moovBox.ser ++ serL id f.post := by
    simp only [File.ser, List.append_assoc]; rfl
  rw [h5]
  simp only [List.length_append]
  omega

/-- **C91**: without UTF-16 texts there is no surplus, and the claimed values are the values. -/
theorem C91_plain (atoms : List AtomData) (h : ∀ a ∈ atoms, ∀ d ∈ a.data, ∀ s, d ≠ .utf16 s) :
    surplus atoms = 0 ∧ atoms.map claimOf = atoms := by
  constructor
  · unfold surplus
    induction atoms with
    | nil => rfl
    | cons a as ih =>
      rw [List.map_cons, List.sum_cons, ih (fun a ha => h a (by simp [ha]))]
      have : ∀ ds : List Data, (∀ d ∈ ds, ∀ s, d ≠ .utf16 s) → (ds.map units).sum = 0 := by
        intro ds hd
        induction ds with
        | nil => rfl
        | cons d ds ih =>
          rw [List.map_cons, List.sum_cons, ih (fun d hd' => hd d (by simp [hd']))]
          cases d with
          | utf16 s => exact absurd rfl (hd _ (by simp) s)
          | _ => rfl
      rw [this a.data (h a (by simp))]
  · conv => rhs; rw [← List.map_id atoms]
    refine List.map_congr_left fun a ha => ?_
    obtain ⟨i, ds⟩ := a
    have : ds.map standIn = ds := by
      conv => rhs; rw [← List.map_id ds]
      refine List.map_congr_left fun d hd => ?_
      cases d with
      | utf16 s => exact absurd rfl (h _ ha _ hd s)
      | _ => rfl
    rw [claimOf, this]
    rfl

/-! ### Examples -/

/-- A title of two UTF-16 units. -/
def atomsH : List AtomData := [⟨.fourcc (cc '©' 'n' 'a' 'm'), [.utf16 ['a', 'b']]⟩]

theorem atomsH_store : ∀ a ∈ atomsH.map claimOf, Storable a := by
  intro a ha
  rw [List.mem_singleton.mp ha]
  refine ⟨fun d hd => ?_, by decide +kernel⟩
  rw [List.mem_singleton.mp hd]; trivial

theorem fileW_half : Writable env0 [] fileW (atomsH.map claimOf) where
  wf := fileW_WF
  fit := fileW_writable.fit
  store := atomsH_store
  old := fileW_writable.old
  new := by decide +kernel
  pos := by decide +kernel
  tables := fileW_writable.tables

theorem fileFront_half : Writable env0 [] fileFront (atomsH.map claimOf) where
  wf := fileFront_writable.wf
  fit := fileFront_writable.fit
  store := atomsH_store
  old := fileFront_writable.old
  new := by decide +kernel
  pos := by decide +kernel
  tables := fileFront_writable.tables

/-- The hypotheses hold: with media data behind the movie atom nothing is added. -/
example : (∀ a ∈ atomsH, (entryOf a).box.Fits) ∧ Writable env0 [] fileW (atomsH.map claimOf) ∧ surplus atomsH = 2 ∧
    surplus atomsH ≤ (serL id fileW.post).length ∧
    (writeTagTo env0 fileW.ser 0 atomsH).2.file.length = (fileW.put (atomsH.map claimOf)).ser.length ∧
    (writeTagTo env0 fileW.ser 0 atomsH).2.file.drop 380 = (⟨false, cc 'm' 'd' 'a' 't', [1, 2, 3]⟩ : Box).ser :=
  ⟨by decide +kernel, fileW_half, by decide +kernel, by decide +kernel, by decide +kernel, by decide +kernel⟩

/-- The items that have been read. -/
def atomsRead : Out Tag → Option (List AtomData)
  | .ok t => some t.atoms
  | _ => none

/-- The input is exhausted. -/
def isIo {α} : Out α → Bool
  | .err .io => true
  | _ => false

/-- **C91 is false** without such data behind it: saving succeeds and the title reads as its first half, but two bytes are left over behind
the movie atom, and the file, which can still be read, can never be saved again. -/
theorem C91_refuted : Writable env0 [] fileFront (atomsH.map claimOf) ∧
    ∃ s, writeTagTo env0 fileFront.ser 0 atomsH = (.ok (), s) ∧
      s.file.length = (fileFront.put (atomsH.map claimOf)).ser.length + 2 ∧
      (∃ t, readTag env0 s.file 0 = .ok t ∧ t.atoms = [⟨.fourcc (cc '©' 'n' 'a' 'm'), [.utf16 ['a']]⟩]) ∧
      ∀ atoms, (writeTagTo env0 s.file 0 atoms).1 = .err .io := by
  have key : (writeTagTo env0 fileFront.ser 0 atomsH).1 = .ok () ∧
      (writeTagTo env0 fileFront.ser 0 atomsH).2.file.length = (fileFront.put (atomsH.map claimOf)).ser.length + 2 ∧
      atomsRead (readTag env0 (writeTagTo env0 fileFront.ser 0 atomsH).2.file 0) = some [⟨.fourcc (cc '©' 'n' 'a' 'm'), [.utf16 ['a']]⟩] ∧
      isIo (findTop env0 (writeTagTo env0 fileFront.ser 0 atomsH).2.file 0) = true := by decide +kernel
  refine ⟨fileFront_half, ?_⟩
  generalize writeTagTo env0 fileFront.ser 0 atomsH = r at key
  obtain ⟨k1, k2, k3, k4⟩ := key
  refine ⟨r.2, Prod.ext k1 rfl, k2, ?_, fun atoms => ?_⟩
  · cases h : readTag env0 r.2.file 0 with
    | ok t => rw [h] at k3; exact ⟨t, rfl, Option.some.inj k3⟩
    | err k => rw [h] at k3; exact absurd k3 (by simp [atomsRead])
    | panic => rw [h] at k3; exact absurd k3 (by simp [atomsRead])
    | fuel => rw [h] at k3; exact absurd k3 (by simp [atomsRead])
  · have h : findTop env0 r.2.file 0 = .err .io := by
      generalize findTop env0 r.2.file 0 = o at k4
      cases o with
      | err k => cases k <;> first | rfl | exact absurd k4 (by simp [isIo])
      | _ => exact absurd k4 (by simp [isIo])
    rw [writeTagTo, preparePhase, P.bind_err h]

/-- A file with a title of four UTF-16 units, as it is written by another program, and media data behind it. -/
def fileE : File := { dumpFile [⟨.fourcc (cc '©' 'n' 'a' 'm'), [.utf16 ['a', 'b', 'c', 'd']]⟩] with post := [⟨false, cc 'm' 'd' 'a' 't', [1, 2, 3, 4]⟩] }

/-- Reading a file and saving the tag unchanged. -/
def resave (F : Bytes) : Bytes := match readTag env0 F 0 with | .ok t => (writeTag env0 F 0 t).2 | _ => F

/-- **C91**: the tag of a well-formed file does not survive being read and saved unchanged: each time half of the text is lost. -/
theorem C91_erodes : fileE.WF ∧ Fit env0 fileE.ser ∧
    atomsRead (readTag env0 fileE.ser 0) = some [⟨.fourcc (cc '©' 'n' 'a' 'm'), [.utf16 ['a', 'b', 'c', 'd']]⟩] ∧
    atomsRead (readTag env0 (resave fileE.ser) 0) = some [⟨.fourcc (cc '©' 'n' 'a' 'm'), [.utf16 ['a', 'b']]⟩] ∧
    atomsRead (readTag env0 (resave (resave fileE.ser)) 0) = some [⟨.fourcc (cc '©' 'n' 'a' 'm'), [.utf16 ['a']]⟩] ∧
    atomsRead (readTag env0 (resave (resave (resave fileE.ser))) 0) = some [⟨.fourcc (cc '©' 'n' 'a' 'm'), [.utf16 []]⟩] :=
  ⟨by decide +kernel, ⟨by decide +kernel, by decide +kernel, by decide +kernel⟩, by decide +kernel, by decide +kernel, by decide +kernel, by decide +kernel⟩

end Mp4.Props
