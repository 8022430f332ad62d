import Verif.Proof.Halves
import Verif.Props.Dump
/-
C26, C30: exactly which tags survive being dumped, and what is left of those that do not.
-/
namespace Mp4.Props
open Mp4 Spec

theorem dumpTag_raw {e : Env} {t : Tag} (h : ∀ a ∈ t.atoms, (entryOf a).box.Fits) : (dumpTag e t).1 = dumpRaw t.atoms := by
  have := (dump_raw h).apply e
  rw [dumpTag, this]

theorem At_whole (F : Bytes) : At F 0 F := by
  unfold At; simp

theorem noText_iff {d : Data} : ¬ noUtf16Text d ↔ ∃ s, d = .utf16 s ∧ s ≠ [] := by
  cases d <;> simp [noUtf16Text]

/-- **C30**, exactly: a tag survives being dumped if and only if no identifier occurs twice, every entry has a value, none is called
`free`, and there is no UTF-16 text but the empty one. (The items are smaller than 4 GiB and the dump fits into the address space.) -/
theorem C30_iff (e : Env) (t : Tag) (hfit : ∀ a ∈ t.atoms, (entryOf a).box.Fits) (hF : Fit e (dumpTag e t).1) :
    Survives e t ↔ t.NoDup ∧ ∀ a ∈ t.atoms, Visible a ∧ ∀ d ∈ a.data, noUtf16Text d := by
  constructor
  · rintro ⟨t', h1, h2⟩
    rw [dumpTag_raw hfit] at h1 hF
    obtain ⟨p, q, hat, h3⟩ := dump_ilst (atoms := t.atoms) hF (At_whole _) h1
    rw [h2] at h3
    have hv := parseIlst_visible h3
    have hd : t.NoDup := parseIlst_nodup h3
    suffices hn : ∀ a ∈ t.atoms, ∀ d ∈ a.data, noUtf16Text d from ⟨hd, fun a ha => ⟨hv a ha, hn a ha⟩⟩
    apply Classical.byContradiction
    intro hbad
    obtain ⟨L, a, R, h4, h5, h6⟩ := first_bad t.atoms hbad
    obtain ⟨ds, d, r, h7, h8, h9⟩ := first_bad a.data h6
    obtain ⟨s, rfl, hs⟩ := noText_iff.mp h9
    have hd' : (t.atoms.map (·.ident)).Nodup := hd
    generalize dumpRaw t.atoms = F at *
    generalize t.atoms = l at *
    subst h4
    refine parseIlst_half hF hfit (fun x hx => ⟨hv x (by simp [hx]), h5 x hx⟩) (hv a (by simp)) h7 h8 hs ?_ hat h3 rfl
    rw [List.map_append] at hd'
    exact (List.nodup_append.mp hd').1
  · rintro ⟨hd, h⟩
    exact C26_partial e t (fun a ha => ⟨⟨(h a ha).2, hfit a ha⟩, (h a ha).1⟩) hd hF

/-- **C26**, exactly: a UTF-16 text that is not empty never survives, wherever it is and whatever is around it. -/
theorem C26_never (e : Env) (t : Tag) (hfit : ∀ a ∈ t.atoms, (entryOf a).box.Fits) (hF : Fit e (dumpTag e t).1)
    {a : AtomData} {s : Str} (ha : a ∈ t.atoms) (hs : .utf16 s ∈ a.data) (hne : s ≠ []) : ¬ Survives e t := by
  intro h
  exact hne ((((C30_iff e t hfit hF).mp h).2 a ha).2 _ hs)

/-- **C26**, what is left of a text that is the last value: the first half of its UTF-16 units, if that is a text; ... -/
theorem C26_half (e : Env) (t : Tag) {L : List AtomData} {i : DataIdent} {ds : List Data} {s y : Str} (ht : t.atoms = L ++ [⟨i, ds ++ [.utf16 s]⟩])
    (hL : ∀ x ∈ L, Visible x ∧ ∀ d ∈ x.data, noUtf16Text d) (hi : i ≠ .fourcc (cc 'f' 'r' 'e' 'e')) (hds : ∀ d ∈ ds, noUtf16Text d)
    (hfit : ∀ a ∈ t.atoms, (entryOf a).box.Fits) (hd : t.NoDup) (hF : Fit e (dumpTag e t).1)
    (hy : utf16 y = (utf16 s).take ((utf16 s).length / 2)) :
    readTag e (dumpTag e t).1 0 = .ok { ftyp := dumpFtyp, info := {}, atoms := L ++ [⟨i, ds ++ [.utf16 y]⟩] } := by
  rw [dumpTag_raw hfit] at hF ⊢
  obtain ⟨p, h1, h2⟩ := dump_over (atoms := t.atoms) hF (At_whole _)
  have hd' : (t.atoms.map (·.ident)).Nodup := hd
  rw [h2]
  generalize dumpRaw t.atoms = F at *
  rw [ht] at h1 hd' hfit ⊢
  obtain ⟨q, h3⟩ := parseIlst_over hF hfit hL ⟨by simp, hi⟩ rfl hds hd' h1
  rw [P.bind_apply, h3]
  have : halved s = .ok y := by
    rw [halved, utf16Enc_spec, ← hy, ← utf16Enc_spec, utf16Dec_enc]
  rw [this]
  rfl

/-- **C26**: ... otherwise the whole dump is rejected. -/
theorem C26_torn (e : Env) (t : Tag) {L : List AtomData} {i : DataIdent} {ds : List Data} {s : Str} (ht : t.atoms = L ++ [⟨i, ds ++ [.utf16 s]⟩])
    (hL : ∀ x ∈ L, Visible x ∧ ∀ d ∈ x.data, noUtf16Text d) (hi : i ≠ .fourcc (cc 'f' 'r' 'e' 'e')) (hds : ∀ d ∈ ds, noUtf16Text d)
    (hfit : ∀ a ∈ t.atoms, (entryOf a).box.Fits) (hd : t.NoDup) (hF : Fit e (dumpTag e t).1)
    (hy : ∀ y, utf16 y ≠ (utf16 s).take ((utf16 s).length / 2)) :
    readTag e (dumpTag e t).1 0 = .err .utf16StringDecoding := by
  rw [dumpTag_raw hfit] at hF ⊢
  obtain ⟨p, h1, h2⟩ := dump_over (atoms := t.atoms) hF (At_whole _)
  have hd' : (t.atoms.map (·.ident)).Nodup := hd
  rw [h2]
  generalize dumpRaw t.atoms = F at *
  rw [ht] at h1 hd' hfit ⊢
  obtain ⟨q, h3⟩ := parseIlst_over hF hfit hL ⟨by simp, hi⟩ rfl hds hd' h1
  rw [P.bind_apply, h3]
  have : halved s = .err .utf16StringDecoding := by
    rw [halved]
    cases hdec : utf16Dec ((utf16Enc s).take ((utf16Enc s).length / 2)) with
    | none => rfl
    | some y =>
      exact absurd (utf16Dec_inv _ y (fun x hx => utf16Enc_lt s x (List.mem_of_mem_take hx)) hdec) (hy y)
  rw [this]
  rfl

/-- **C26**: half of a text in the basic plane is half of its characters. -/
theorem C26_half_basic {s : Str} (h : ∀ c ∈ s, c.toNat < 65536) : utf16 (s.take (s.length / 2)) = (utf16 s).take ((utf16 s).length / 2) := by
  have key : ∀ s : Str, (∀ c ∈ s, c.toNat < 65536) → utf16 s = s.map Char.toNat := by
    intro s h
    induction s with
    | nil => rfl
    | cons c s ih =>
      rw [← utf16Enc_spec, utf16Enc, List.flatMap_cons, List.map_cons, utf16EncChar]
      simp only [h c (by simp), if_true]
      have := ih (fun c hc => h c (by simp [hc]))
      rw [← utf16Enc_spec, utf16Enc] at this
      rw [this]; rfl
  rw [key _ h, key _ (fun c hc => h c (List.mem_of_mem_take hc)), List.map_take, List.length_map]

/-- "abcd" comes back as "ab", behind another entry. -/
def halfTag : Tag := { atoms := [⟨.fourcc (cc '©' 'A' 'R' 'T'), [.utf8 ['x']]⟩, ⟨.freeform ['m'] ['n'], [.beSigned [1], .utf16 ['a', 'b', 'c', 'd']]⟩] }

example : readTag env0 (dumpTag env0 halfTag).1 0 = .ok { ftyp := dumpFtyp, info := {}, atoms :=
    [⟨.fourcc (cc '©' 'A' 'R' 'T'), [.utf8 ['x']]⟩, ⟨.freeform ['m'] ['n'], [.beSigned [1], .utf16 ['a', 'b']]⟩] } := by decide +kernel

/-- A single character outside of the basic plane is cut within its surrogate pair: nothing can be read. -/
example : readTag env0 (dumpTag env0 { atoms := [⟨.fourcc (cc '©' 'A' 'R' 'T'), [.utf8 ['x']]⟩, ⟨.fourcc (cc '©' 'n' 'a' 'm'), [.utf16 ['😀']]⟩] }).1 0
    = .err .utf16StringDecoding := by decide +kernel

/-- In front of another entry: the rest of the text is taken for the head of the next atom. -/
example : readTag env0 (dumpTag env0 { atoms := [⟨.fourcc (cc '©' 'n' 'a' 'm'), [.utf16 ['a', 'b']]⟩, ⟨.fourcc (cc '©' 'A' 'R' 'T'), [.utf8 ['x']]⟩] }).1 0
    = .err (.atomNotFound DATA) := by decide +kernel

end Mp4.Props
