import Verif.Proof.Dump
import Verif.Proof.TagMap
import Verif.Props.Text
import Verif.Props.TagMap
/-
C26, C28, C29, C30: dumping a tag and reading it back.
-/
namespace Mp4.Props
open Mp4 Spec

/-- A tag for concrete cases: a text with two values, a freeform item and an image. -/
def dumpTagEx : Tag :=
  { atoms := [⟨.fourcc (cc '©' 'n' 'a' 'm'), [.utf8 ['a'], .utf8 []]⟩,
              ⟨.freeform ['m'] ['n', 'é'], [.beSigned [1, 2]]⟩,
              ⟨.fourcc (cc 'c' 'o' 'v' 'r'), [.png [9]]⟩] }

/-! ### C28 -/

/-- **C28.** What is dumped is exactly the specified file. `File.ser` puts the actual size into every
size field, and the spec uses the 64 bit form exactly for atoms that need it (`mkBox`). -/
theorem C28_dump (e : Env) (t : Tag) (h : ∀ a ∈ t.atoms, Storable a) :
    dumpTag e t = ((dumpFile t.atoms).ser, .ok ()) := (dump_emits h).apply e

/-- **C28.** The specified file is well-formed. -/
theorem C28_wellformed (t : Tag) : (dumpFile t.atoms).WF := dumpFile_WF t.atoms

/-- **C28.** Layout of the specified file, spelled out for the outermost level: `ftyp`, then `moov`
containing `udta`, containing `meta`, containing `hdlr` and `ilst`. -/
theorem C28_layout (atoms : List AtomData) :
    ∃ ftyp moov udta mt hdlr ilst : Box,
      (dumpFile atoms).ser = ftyp.ser ++ moov.ser ∧ moov.body = udta.ser ∧ udta.body = mt.ser ∧
      mt.body = [0, 0, 0, 0] ++ hdlr.ser ++ ilst.ser ∧
      ftyp.fc = cc 'f' 't' 'y' 'p' ∧ moov.fc = cc 'm' 'o' 'o' 'v' ∧ udta.fc = cc 'u' 'd' 't' 'a' ∧
      mt.fc = cc 'm' 'e' 't' 'a' ∧ hdlr.fc = cc 'h' 'd' 'l' 'r' ∧ ilst.fc = cc 'i' 'l' 's' 't' ∧
      ilst.body = atoms.flatMap (fun a => (entryOf a).box.ser) ∧
      ∀ b ∈ [ftyp, moov, udta, mt, hdlr, ilst], (b.ext = true ↔ 2^32 ≤ b.body.length + 8) := by
  refine ⟨_, _, _, _, hdlrBox, ilstBox atoms, dumpFile_ser atoms, newMoov_ser atoms, newUdta_ser atoms, ?_, rfl, rfl, rfl, rfl,
    rfl, rfl, serL_map _ _ _, ?_⟩
  · show (newMeta atoms).ser = [0, 0, 0, 0] ++ hdlrBox.ser ++ (ilstBox atoms).ser
    simp [newMeta, Meta.ser, serL_cons, serL_nil]
  · intro b hb
    have hmk : ∀ fc body, ((mkBox fc body).ext = true ↔ 2^32 ≤ (mkBox fc body).body.length + 8) := by
      intro fc body; simp only [mkBox, decide_eq_true_eq]
    rcases List.mem_cons.mp hb with rfl | hb
    · refine ⟨fun h => absurd h (by simp), fun h => ?_⟩
      exfalso
      have : (utf8 dumpFtyp).length = 16 := by rw [← utf8Enc_spec]; decide
      simp only [this] at h
      omega
    · simp only [List.mem_cons, List.not_mem_nil, or_false] at hb
      rcases hb with rfl | rfl | rfl | rfl | rfl <;> exact hmk _ _

example : (∀ a ∈ dumpTagEx.atoms, Storable a) ∧ (dumpTag env0 dumpTagEx).1.length = 213 := by
  constructor
  · intro a ha
    simp only [dumpTagEx, List.mem_cons, List.not_mem_nil, or_false] at ha
    rcases ha with rfl | rfl | rfl <;> exact ⟨by simp [noUtf16Text], by decide⟩
  · decide +kernel

/-! ### C29 -/

/-- **C29.** Reading what was dumped yields the dumped items. -/
theorem C29_roundtrip (e : Env) (t : Tag) (h : ∀ a ∈ t.atoms, Storable a ∧ Visible a) (hd : t.NoDup)
    (hF : Fit e (dumpTag e t).1) :
    readTag e (dumpTag e t).1 0 = .ok { ftyp := dumpFtyp, info := {}, atoms := t.atoms } := by
  have hdump := C28_dump e t (fun a ha => (h a ha).1)
  rw [hdump] at hF ⊢
  have hc := dumpFile_content (ilst_content (fun a ha => ⟨(h a ha).1.2, (h a ha).2⟩))
  rw [group_of_nodup hd] at hc
  have := read_spec (X := []) (Y := []) (e := e) (by simpa using hF) (dumpFile_WF t.atoms) hc
  simpa using this

/-- **C29.** The same when something precedes or follows the dump in the stream. -/
theorem C29_roundtrip_anywhere (e : Env) (t : Tag) (h : ∀ a ∈ t.atoms, Storable a ∧ Visible a) (hd : t.NoDup)
    (X Y : Bytes) (hF : Fit e (X ++ (dumpTag e t).1 ++ Y)) :
    readTag e (X ++ (dumpTag e t).1 ++ Y) X.length = .ok { ftyp := dumpFtyp, info := {}, atoms := t.atoms } := by
  have hdump := C28_dump e t (fun a ha => (h a ha).1)
  rw [hdump] at hF ⊢
  have hc := dumpFile_content (ilst_content (fun a ha => ⟨(h a ha).1.2, (h a ha).2⟩))
  rw [group_of_nodup hd] at hc
  exact read_spec hF (dumpFile_WF t.atoms) hc

/-- **C29.** Dumps determine the items: different tags have different dumps. -/
theorem C29_injective (e : Env) (t u : Tag) (ht : ∀ a ∈ t.atoms, Storable a ∧ Visible a) (hdt : t.NoDup)
    (hu : ∀ a ∈ u.atoms, Storable a ∧ Visible a) (hdu : u.NoDup) (hF : Fit e (dumpTag e t).1)
    (h : (dumpTag e t).1 = (dumpTag e u).1) : t.atoms = u.atoms := by
  have h1 := C29_roundtrip e t ht hdt hF
  have h2 := C29_roundtrip e u hu hdu (h ▸ hF)
  rw [h, h2] at h1
  simp only [Out.ok.injEq, Tag.mk.injEq, true_and] at h1
  exact h1.symm

example : readTag env0 (dumpTag env0 dumpTagEx).1 0
    = .ok { ftyp := dumpFtyp, info := {}, atoms := dumpTagEx.atoms } := by decide +kernel

/-! ### C26 -/

/-- The statement of C26 for one tag: dumped and read back, it yields the same items. -/
def Survives (e : Env) (t : Tag) : Prop :=
  ∃ t', readTag e (dumpTag e t).1 0 = .ok t' ∧ t'.atoms = t.atoms

/-- A tag the API builds: `set_data(©nam, Data::Utf16("ab"))`. -/
def utf16Tag : Tag := ({} : Tag).setData (.fourcc (cc '©' 'n' 'a' 'm')) (.utf16 ['a', 'b'])

theorem utf16Tag_read : readTag env0 (dumpTag env0 utf16Tag).1 0
    = .ok { ftyp := dumpFtyp, info := {}, atoms := [⟨.fourcc (cc '©' 'n' 'a' 'm'), [.utf16 ['a']]⟩] } := by
  decide +kernel

/-- **C26 is false of the code.** The text is cut in half, without an error. -/
theorem C26_refuted : ∃ (e : Env) (t : Tag), (∃ i s, t.dataOf i = [.utf16 s]) ∧ t.NoDup ∧ ¬ Survives e t := by
  refine ⟨env0, utf16Tag, ⟨.fourcc (cc '©' 'n' 'a' 'm'), ['a', 'b'], by decide⟩, by decide, ?_⟩
  rintro ⟨t', h1, h2⟩
  rw [utf16Tag_read] at h1
  have := Out.ok.inj h1
  subst this
  revert h2
  decide

/-- **C26**, what holds: without UTF-16 text nothing is lost. Missing: tags with non-empty UTF-16 values,
for which the claim is false (`C26_refuted`). -/
theorem C26_partial (e : Env) (t : Tag) (h : ∀ a ∈ t.atoms, Storable a ∧ Visible a) (hd : t.NoDup)
    (hF : Fit e (dumpTag e t).1) : Survives e t := ⟨_, C29_roundtrip e t h hd hF, rfl⟩

example : Survives env0 dumpTagEx :=
  ⟨{ ftyp := dumpFtyp, info := {}, atoms := dumpTagEx.atoms }, by decide +kernel, rfl⟩

/-! ### C30 -/

/-- **C30**, what holds: entries called `free` are lost, everything else survives, including entries
called `----` without mean and name. Missing: entries without values and non-empty UTF-16 values, for which the
claim is false. -/
theorem C30_partial (e : Env) (t : Tag)
    (h : ∀ a ∈ t.atoms, Storable a ∧ (a.ident ≠ .fourcc (cc 'f' 'r' 'e' 'e') → a.data ≠ [])) (hd : t.NoDup)
    (hF : Fit e (dumpTag e t).1) :
    readTag e (dumpTag e t).1 0 =
      .ok ⟨dumpFtyp, {}, t.atoms.filter (·.ident ≠ .fourcc (cc 'f' 'r' 'e' 'e'))⟩ := by
  have hdump := C28_dump e t (fun a ha => (h a ha).1)
  rw [hdump] at hF ⊢
  have hc := dumpFile_content (ilst_content_free (fun a ha => ⟨(h a ha).1.2, (h a ha).2⟩))
  rw [group_of_nodup] at hc
  · have := read_spec (X := []) (Y := []) (e := e) (by simpa using hF) (dumpFile_WF t.atoms) hc
    simpa using this
  · exact List.Nodup.sublist (List.Sublist.map _ List.filter_sublist) hd

/-- **C30 is false of the code**: an entry emptied by `set_all_data(i, [])` makes the dump unreadable. -/
theorem C30_refuted_empty : readTag env0 (dumpTag env0 (({} : Tag).setAllData (.fourcc (cc '©' 'n' 'a' 'm')) [])).1 0
    = .err (.atomNotFound (cc 'd' 'a' 't' 'a')) := by decide +kernel

/-- **C30 is false of the code**: an entry called `free` is lost. -/
theorem C30_refuted_free :
    readTag env0 (dumpTag env0 (({} : Tag).setData (.fourcc (cc 'f' 'r' 'e' 'e')) (.utf8 ['x']))).1 0
    = .ok { ftyp := dumpFtyp, info := {}, atoms := [] } := by decide +kernel

/-- **C30 is false of the code**: UTF-16 text is cut. -/
theorem C30_refuted_utf16 : ¬ Survives env0 utf16Tag := by
  rintro ⟨t', h1, h2⟩
  rw [utf16Tag_read] at h1
  have := Out.ok.inj h1
  subst this
  revert h2
  decide

example : readTag env0 (dumpTag env0 { atoms := [⟨.fourcc (cc '-' '-' '-' '-'), [.utf8 ['x']]⟩,
      ⟨.fourcc (cc 'f' 'r' 'e' 'e'), []⟩] }).1 0
    = .ok { ftyp := dumpFtyp, info := {}, atoms := [⟨.fourcc (cc '-' '-' '-' '-'), [.utf8 ['x']]⟩] } := by
  decide +kernel

end Mp4.Props
