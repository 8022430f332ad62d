import Verif.Spec.Sittings
import Verif.Props.Commute
import Verif.Props.Edit
import Verif.Props.Shadow
/-
C107: editing a file in several sittings or in one.
-/
namespace Mp4.Props
open Mp4 Spec

theorem runOps_append (p q : List TagOp) (t : Tag) : runOps (p ++ q) t = runOps q (runOps p t) := by
  induction p generalizing t with
  | nil => rfl
  | cons o p ih => exact ih _

theorem tag_eta (v w : Tag) (h : w.ftyp = v.ftyp ∧ w.info = v.info) : ({ ftyp := v.ftyp, info := v.info, atoms := w.atoms } : Tag) = w := by
  cases w; simp only [Tag.mk.injEq, and_true]; exact ⟨h.1.symm, h.2.symm⟩

theorem sittings_from {e X f} {v : Tag} (hd : v.NoDup) (hc : f.Content v) (ps : List (List TagOp)) (p : List TagOp)
    (h : ∀ q, q <+: ps → Saveable e X f (runOps (p ++ q.flatten) v) ∧ ∀ a ∈ (runOps (p ++ q.flatten) v).atoms, Visible a) :
    sittings e X.length (X ++ (f.put (runOps p v).atoms).ser) ps = some (X ++ (f.put (runOps (p ++ ps.flatten) v).atoms).ser) := by
  induction ps generalizing p with
  | nil => simp [sittings]
  | cons q ps ih =>
    obtain ⟨h0, hv⟩ := h [] List.nil_prefix
    obtain ⟨h1, -⟩ := h [q] ⟨ps, rfl⟩
    simp only [List.flatten_nil, List.append_nil, List.flatten_cons] at h0 hv h1
    obtain ⟨F, e1, e2⟩ := C41_write_read e X f v _ h0.toWritable h0.fits h0.fit' hv (runOps_noDup p v hd) hc
    rw [h0.toWritable.save] at e1
    obtain rfl := (Prod.mk.inj e1).2
    rw [tag_eta v _ (runOps_rest p v)] at e2
    have hs := (h0.again h1.toWritable (C48_sameForm _ _ h0.small h1.small)).save
    rw [put_put h0.tables (C48_sameForm _ _ h0.small h1.small)] at hs
    have : sitting e X.length (X ++ (f.put (runOps p v).atoms).ser) q = some (X ++ (f.put (runOps (p ++ q) v).atoms).ser) := by
      unfold sitting
      rw [e2]
      dsimp only
      rw [← runOps_append, hs]
    rw [sittings, this, Option.bind_some, ih (p ++ q) ?_]
    · simp only [List.flatten_cons, List.append_assoc]
    · intro r hr
      have := h (q :: r) (List.cons_prefix_cons.mpr ⟨rfl, hr⟩)
      simpa only [List.flatten_cons, List.append_assoc] using this

/-- **C107**: a file that is edited in several sittings, in each of which the tag is read, changed and saved, has in the end the same
bytes as if all calls had been made in one sitting; and then the tag that all calls together give can be read from it. -/
theorem C107_sittings (e : Env) (X : Bytes) (f : File) (v : Tag) (p : List TagOp) (ps : List (List TagOp)) (hc : f.Content v)
    (h : ∀ q, q <+: ps → Saveable e X f (runOps (p ++ q.flatten) v) ∧ ∀ a ∈ (runOps (p ++ q.flatten) v).atoms, Visible a) :
    ∃ F, sittings e X.length (X ++ f.ser) (p :: ps) = some F ∧ sittings e X.length (X ++ f.ser) [p ++ ps.flatten] = some F ∧
      readTag e F X.length = .ok (runOps (p ++ ps.flatten) v) := by
  obtain ⟨h0, -⟩ := h [] List.nil_prefix
  obtain ⟨h1, hv1⟩ := h ps (List.prefix_refl ps)
  have hr : readTag e (X ++ f.ser) X.length = .ok v := by
    have := read_spec (X := X) (Y := []) (e := e) (by rw [List.append_nil]; exact h0.fit) h0.wf hc
    rwa [List.append_nil] at this
  have hd := readTag_noDup hr
  simp only [List.flatten_nil, List.append_nil] at h0
  obtain ⟨F, e1, e2⟩ := C41_write_read e X f v _ h1.toWritable h1.fits h1.fit' hv1 (runOps_noDup _ v hd) hc
  rw [h1.toWritable.save] at e1
  obtain rfl := (Prod.mk.inj e1).2
  rw [tag_eta v _ (runOps_rest _ v)] at e2
  refine ⟨_, ?_, ?_, e2⟩
  · have : sitting e X.length (X ++ f.ser) p = some (X ++ (f.put (runOps p v).atoms).ser) := by
      unfold sitting; rw [hr]; dsimp only; rw [h0.toWritable.save]
    rw [sittings, this, Option.bind_some, sittings_from hd hc ps p h]
  · have : sitting e X.length (X ++ f.ser) (p ++ ps.flatten) = some (X ++ (f.put (runOps (p ++ ps.flatten) v).atoms).ser) := by
      unfold sitting; rw [hr]; dsimp only; rw [h1.toWritable.save]
    rw [sittings, this]; rfl

/-! ### A concrete case: the title in the first sitting, the artist in the second -/

def titleEx : List TagOp := [.setString (.fourcc (cc '©' 'n' 'a' 'm')) ['x']]
def artistEx : List TagOp := [.addString (.fourcc (cc '©' 'A' 'R' 'T')) ['y', 'z']]

theorem titleEx_atoms : (runOps titleEx tagEx).atoms =
    [⟨.fourcc (cc '©' 'n' 'a' 'm'), [.utf8 ['x']]⟩, ⟨.freeform ['m'] ['n'], [.beSigned [7]]⟩] := by decide

theorem titleEx_store : ∀ a ∈ (runOps titleEx tagEx).atoms, Storable a ∧ Visible a := by
  intro a ha
  apply editEx_store a
  rw [titleEx_atoms] at ha
  rw [editEx_atoms]
  simp only [List.mem_cons, List.not_mem_nil, or_false] at ha ⊢
  rcases ha with h | h <;> simp [h]

theorem titleEx_saveable : Saveable env0 [] fileW (runOps titleEx tagEx) where
  wf := fileW_WF
  fit := fileW_writable.fit
  store := fun a ha => (titleEx_store a ha).1
  old := fileW_writable.old
  new := by decide +kernel
  pos := by decide +kernel
  tables := fileW_writable.tables
  fits := putFits_of_small (by decide +kernel)
  fit' := ⟨by decide +kernel, by decide +kernel, by decide +kernel⟩
  range := fun _ => fileW_inRange _ (by decide +kernel)
  small := by decide +kernel

example : ∃ F, sittings env0 0 ([] ++ fileW.ser) [titleEx, artistEx] = some F ∧ sittings env0 0 ([] ++ fileW.ser) [editEx] = some F ∧
    readTag env0 F 0 = .ok (runOps editEx tagEx) := by
  refine C107_sittings env0 [] fileW tagEx titleEx [artistEx] fileW_content fun q hq => ?_
  rw [List.prefix_cons_iff] at hq
  rcases hq with rfl | ⟨r, rfl, hr⟩
  · exact ⟨titleEx_saveable, fun a ha => (titleEx_store a ha).2⟩
  · obtain rfl := List.prefix_nil.mp hr
    exact ⟨⟨editEx_rewritable, by decide +kernel⟩, fun a ha => (editEx_store a ha).2⟩

/-- **C107** without the restriction to values other than UTF-16 texts is false: a second sitting without any call changes the file
again (see C91). -/
theorem C107_utf16 : ∃ F F', fileE.WF ∧ Fit env0 fileE.ser ∧ sittings env0 0 fileE.ser [[]] = some F ∧
    sittings env0 0 fileE.ser [[], []] = some F' ∧ F ≠ F' := by
  have h : (sittings env0 0 fileE.ser [[]]).isSome = true ∧ (sittings env0 0 fileE.ser [[], []]).isSome = true ∧
      sittings env0 0 fileE.ser [[]] ≠ sittings env0 0 fileE.ser [[], []] := by decide +kernel
  obtain ⟨h1, h2, h3⟩ := h
  obtain ⟨F, hF⟩ := Option.isSome_iff_exists.mp h1
  obtain ⟨F', hF'⟩ := Option.isSome_iff_exists.mp h2
  refine ⟨F, F', C91_erodes.1, C91_erodes.2.1, hF, hF', fun e => h3 ?_⟩
  rw [hF, hF', e]

end Mp4.Props
