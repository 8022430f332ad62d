import Verif.Proof.Emit
/-
The dumped file is well-formed and contains the items.
-/
namespace Mp4
open Spec

theorem dumpFile_moovBox (atoms : List AtomData) :
    (dumpFile atoms).moovBox = mkBox (cc 'm' 'o' 'o' 'v') (newMoov atoms).ser := by
  simp only [File.moovBox, dumpFile, mkBox]

theorem dumpFile_ftypBox (atoms : List AtomData) :
    (dumpFile atoms).ftypBox = ⟨false, cc 'f' 't' 'y' 'p', utf8 dumpFtyp⟩ := by
  rw [File.ftypBox, dumpFile_ftyp]; rfl

theorem dumpFtyp_len : (utf8 dumpFtyp).length = 16 := by
  rw [← utf8Enc_spec]; decide

theorem dumpFile_WF (atoms : List AtomData) : (dumpFile atoms).WF := by
  have hmeta : (newMeta atoms).WF := by
    refine ⟨rfl, ?_⟩
    intro b hb
    simp only [newMeta, List.mem_cons, List.not_mem_nil, or_false] at hb
    rcases hb with rfl | rfl
    · exact mkBox_fits _ _
    · exact mkBox_fits _ _
  have hudta : (newUdta atoms).WF := by
    intro k hk
    simp only [newUdta, List.mem_cons, List.not_mem_nil, or_false] at hk
    subst hk
    exact ⟨mkBox_fits _ _, hmeta⟩
  have hmoov : Spec.Moov.WF (newMoov atoms) := by
    intro k hk
    simp only [newMoov, List.mem_cons, List.not_mem_nil, or_false] at hk
    subst hk
    exact ⟨mkBox_fits _ _, hudta⟩
  refine ⟨?_, ?_, hmoov, ?_, ?_⟩
  · rw [dumpFile_ftypBox]
    intro _
    show (utf8 dumpFtyp).length + 8 < 2^32
    rw [dumpFtyp_len]; decide
  · rw [dumpFile_moovBox]; exact mkBox_fits _ _
  · intro b hb
    have : (dumpFile atoms).pre = [] := rfl
    rw [this] at hb; simp at hb
  · intro b hb
    have : (dumpFile atoms).post = [] := rfl
    rw [this] at hb; simp at hb

theorem LastOf_none {κ β γ} {sel : κ → Option β} {R : β → γ → Prop} {ks : List κ} (h : ∀ k ∈ ks, sel k = none) :
    LastOf sel R ks none := by
  refine ⟨fun k hk b hb => by rw [h k hk] at hb; simp at hb, ?_⟩
  rw [List.filterMap_eq_nil_iff.mpr h]; rfl

theorem LastOf_snoc {κ β γ} {sel : κ → Option β} {R : β → γ → Prop} {ks : List κ} {k : κ} {b : β} {g : γ}
    (hs : sel k = some b) (hR : R b g) (h : ∀ k ∈ ks, ∀ b, sel k = some b → ∃ g, R b g) :
    LastOf sel R (ks ++ [k]) (some g) := by
  refine ⟨fun j hj c hc => ?_, ?_⟩
  · rcases List.mem_append.mp hj with hj | hj
    · exact h j hj c hc
    · simp only [List.mem_cons, List.not_mem_nil, or_false] at hj
      subst hj
      rw [hs] at hc
      exact ⟨g, (Option.some.inj hc) ▸ hR⟩
  · rw [List.filterMap_append, List.filterMap_cons_some hs, List.filterMap_nil, List.getLast?_concat]
    exact ⟨g, rfl, hR⟩

theorem ilstBox_sel (atoms : List AtomData) : Box.sel (cc 'i' 'l' 's' 't') (ilstBox atoms) = some (ilstBox atoms).body := by
  rw [Box.sel, if_pos]; rfl

theorem newMeta_content {atoms : List AtomData} {items} (h : IlstBody (ilstBox atoms).body items) :
    MetaItems (newMeta atoms) (some items) := by
  refine LastOf_snoc (ks := [hdlrBox]) (k := ilstBox atoms) (ilstBox_sel atoms) h ?_
  intro k hk b hb
  simp only [List.mem_cons, List.not_mem_nil, or_false] at hk
  subst hk
  have : Box.sel (cc 'i' 'l' 's' 't') hdlrBox = none := by decide
  rw [this] at hb; simp at hb

theorem newUdta_content {atoms : List AtomData} {items} (h : IlstBody (ilstBox atoms).body items) :
    UdtaItems (newUdta atoms) (some items) :=
  ⟨some (some items), LastOf_snoc (ks := []) (k := metaKid (newMeta atoms)) rfl (newMeta_content h) (by simp), rfl⟩

theorem dumpFile_content {atoms : List AtomData} {items} (h : IlstBody (ilstBox atoms).body items) :
    (dumpFile atoms).Content { ftyp := dumpFtyp, info := {}, atoms := group items } := by
  refine ⟨none, none, some items, ⟨?_, ⟨[], ?_, rfl⟩, ⟨some (some items), ?_, rfl⟩⟩, rfl⟩
  · refine LastOf_none (ks := newMoov atoms) ?_
    intro k hk
    simp only [newMoov, List.mem_cons, List.not_mem_nil, or_false] at hk
    subst hk; rfl
  · show All2 TrakAudio ((newMoov atoms).filterMap MoovKid.trak?) []
    rw [newMoov, List.filterMap_cons_none (show MoovKid.trak? (udtaKid _) = none from rfl)]
    trivial
  · exact LastOf_snoc (ks := []) (k := udtaKid (newUdta atoms)) rfl (newUdta_content h) (by simp)

/-- The entry of an item list, with the name `free` taken into account. -/
def entryOf' (a : AtomData) : Entry :=
  if a.ident = .fourcc (cc 'f' 'r' 'e' 'e') then .free false (serL Part.box (a.data.map dataPart)) else entryOf a

theorem entryOf'_box (a : AtomData) : (entryOf' a).box = (entryOf a).box := by
  unfold entryOf'
  split
  · rename_i h; unfold entryOf; rw [h]; rfl
  · rfl

theorem ilst_content_free {atoms : List AtomData}
    (h : ∀ a ∈ atoms, (entryOf a).box.Fits ∧ (a.ident ≠ .fourcc (cc 'f' 'r' 'e' 'e') → a.data ≠ [])) :
    IlstBody (ilstBox atoms).body
      ((atoms.filter (·.ident ≠ .fourcc (cc 'f' 'r' 'e' 'e'))).map fun a => (a.ident, a.data)) := by
  refine ⟨atoms.map entryOf', ?_, ?_, ?_⟩
  · intro x hx
    obtain ⟨a, ha, rfl⟩ := List.mem_map.mp hx
    obtain ⟨h1, h2⟩ := h a ha
    unfold entryOf'
    split
    · rename_i hf
      refine ⟨?_, trivial⟩
      have := entryOf'_box a
      unfold entryOf' at this
      rw [if_pos hf] at this
      rw [this]; exact h1
    · rename_i hf
      exact entryOf_WF h1 ⟨h2 hf, hf⟩
  · show serL Entry.box (atoms.map entryOf) = _
    rw [serL_map, serL_map]
    congr 1
    funext a
    rw [entryOf'_box]
  · clear h
    induction atoms with
    | nil => rfl
    | cons a atoms ih =>
      rw [List.map_cons, List.filter_cons]
      by_cases hf : a.ident = .fourcc (cc 'f' 'r' 'e' 'e')
      · rw [List.filterMap_cons_none (show (entryOf' a).decoded = none by rw [entryOf', if_pos hf]; rfl)]
        simp only [hf, ne_eq, not_true_eq_false, decide_false, Bool.false_eq_true, if_false]
        exact ih
      · rw [List.filterMap_cons_some (show (entryOf' a).decoded = some (a.ident, a.data) by
          rw [entryOf', if_neg hf, entryOf_decoded])]
        simp only [hf, ne_eq, not_false_eq_true, decide_true, if_true, List.map_cons]
        rw [ih]

end Mp4
