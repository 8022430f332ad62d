import Verif.Model.Example
import Verif.Spec.Example
import Verif.Proof.TagOps
import Verif.Proof.Halves
namespace Mp4
open Spec

/-! ### What holds of all item lists holds of what is read -/

theorem parseMeta_all {Q : List AtomData → Prop} (hQ : ∀ {size e F p l q}, parseIlst size e F p = .ok (l, q) → Q l) {size e F p l q}
    (h : parseMeta size e F p = .ok (l, q)) : ∀ x, l = some x → Q x := by
  rw [parseMeta] at h
  obtain ⟨⟨v, fl⟩, _, _, h⟩ := P.bind_inv h
  simp only [P.if_apply] at h
  split at h
  · exact absurd h P.fail_inv
  · refine loop_inv (fun l : Option (List AtomData) => ∀ x, l = some x → Q x) ?_ (by simp) h
    intro s hd p s' p' hs hh
    rw [P.if_apply] at hh
    split at hh
    · obtain ⟨a, _, ha, hh⟩ := P.bind_inv hh
      obtain ⟨rfl, -⟩ := P.pure_inv hh
      intro x hx
      cases hx
      exact hQ ha
    · obtain ⟨_, _, _, hh⟩ := P.bind_inv hh
      obtain ⟨rfl, -⟩ := P.pure_inv hh
      exact hs

theorem parseUdta_all {Q : List AtomData → Prop} (hQ : ∀ {size e F p l q}, parseIlst size e F p = .ok (l, q) → Q l) {size e F p l q}
    (h : parseUdta size e F p = .ok (l, q)) : ∀ x, l.bind id = some x → Q x := by
  refine loop_inv (fun l : Option (Option (List AtomData)) => ∀ x, l.bind id = some x → Q x) ?_ (by simp) h
  intro s hd p s' p' hs hh
  rw [P.if_apply] at hh
  split at hh
  · obtain ⟨a, _, ha, hh⟩ := P.bind_inv hh
    obtain ⟨rfl, -⟩ := P.pure_inv hh
    exact parseMeta_all hQ ha
  · obtain ⟨_, _, _, hh⟩ := P.bind_inv hh
    obtain ⟨rfl, -⟩ := P.pure_inv hh
    exact hs

theorem parseMoov_all {Q : List AtomData → Prop} (hQ : ∀ {size e F p l q}, parseIlst size e F p = .ok (l, q) → Q l) {size e F p m q}
    (h : parseMoov size e F p = .ok (m, q)) : ∀ x, (m.udta.bind id).bind id = some x → Q x := by
  refine loop_inv (fun m : Moov => ∀ x, (m.udta.bind id).bind id = some x → Q x) ?_ (by simp) h
  intro s hd p s' p' hs hh
  simp only [moovHandle, P.if_apply] at hh
  split at hh
  · obtain ⟨a, _, ha, hh⟩ := P.bind_inv hh
    obtain ⟨rfl, -⟩ := P.pure_inv hh
    exact hs
  split at hh
  · obtain ⟨a, _, ha, hh⟩ := P.bind_inv hh
    obtain ⟨rfl, -⟩ := P.pure_inv hh
    exact hs
  split at hh
  · obtain ⟨a, _, ha, hh⟩ := P.bind_inv hh
    obtain ⟨rfl, -⟩ := P.pure_inv hh
    exact parseUdta_all hQ ha
  · obtain ⟨_, _, _, hh⟩ := P.bind_inv hh
    obtain ⟨rfl, -⟩ := P.pure_inv hh
    exact hs

theorem topWalk_all {Q : List AtomData → Prop} (hQ : ∀ {size e F p l q}, parseIlst size e F p = .ok (l, q) → Q l) {len e F} :
    ∀ {f parsed p m q}, topWalk len f parsed e F p = .ok (m, q) → ∀ x, (m.udta.bind id).bind id = some x → Q x
  | 0, _, _, _, _, h => by simp [topWalk, outOfFuel] at h
  | f+1, parsed, p, m, q, h => by
    simp only [topWalk, P.if_apply] at h
    split at h
    · exact absurd h P.fail_inv
    · obtain ⟨hd, _, _, h⟩ := P.bind_inv h
      rw [P.if_apply] at h
      split at h
      · exact parseMoov_all hQ h
      · obtain ⟨_, _, _, h⟩ := P.bind_inv h
        obtain ⟨_, _, _, h⟩ := P.bind_inv h
        exact topWalk_all hQ h

theorem readTag_all {Q : List AtomData → Prop} (hQ : ∀ {size e F p l q}, parseIlst size e F p = .ok (l, q) → Q l) (h0 : Q [])
    {e F pos t} (h : readTag e F pos = .ok t) : Q t.atoms := by
  simp only [readTag] at h
  generalize hr : readTagP e F pos = r at h
  cases r <;> simp only [Out.val, Out.ok.injEq, reduceCtorEq] at h
  rename_i a
  obtain ⟨t', q⟩ := a
  subst h
  rw [readTagP] at hr
  obtain ⟨ft, _, _, hr⟩ := P.bind_inv hr
  obtain ⟨len, _, _, hr⟩ := P.bind_inv hr
  obtain ⟨f, _, _, hr⟩ := P.bind_inv hr
  obtain ⟨m, _, hm, hr⟩ := P.bind_inv hr
  obtain ⟨rfl, -⟩ := P.pure_inv hr
  have := topWalk_all hQ hm
  simp only [mkTag]
  cases h : (m.udta.bind id).bind id with
  | none => exact h0
  | some l => exact this l h

theorem readTag_visible {e F pos t} (h : readTag e F pos = .ok t) : ∀ a ∈ t.atoms, Visible a :=
  readTag_all (Q := fun l => ∀ a ∈ l, Visible a) parseIlst_visible (fun _ h => by cases h) h

/-! ### Re-encoding -/

theorem mapIdx_const {α β} (f : α → β) (l : List α) : l.mapIdx (fun _ => f) = l.map f := by
  refine List.ext_getElem? fun k => ?_
  rw [List.getElem?_mapIdx, List.getElem?_map]

theorem reencode_atoms (t : Tag) : (reencode t).atoms = t.atoms.map fun a => ⟨a.ident, a.data.map reencodeData⟩ := by
  simp only [reencode, Tag.dataMut, mapIdx_const]

theorem sameInUtf8 (d : Data) : SameInUtf8 d (reencodeData d) := by
  cases d <;> simp [SameInUtf8, reencodeData]

theorem sameInUtf8_iff {d d' : Data} : SameInUtf8 d d' ↔ d' = reencodeData d := by
  refine ⟨fun h => ?_, fun h => h ▸ sameInUtf8 d⟩
  cases d <;> simp_all [SameInUtf8, reencodeData]

theorem reencoded (t : Tag) : Reencoded t (reencode t) where
  ftyp := rfl
  info := rfl
  idents := by rw [reencode_atoms, List.map_map]; rfl
  count := by rw [reencode_atoms, List.map_map]; congr 1; funext a; simp
  value := by
    intro j k a b d d' ha hb hd hd'
    rw [reencode_atoms, List.getElem?_map, ha] at hb
    cases hb
    rw [List.getElem?_map, hd] at hd'
    cases hd'
    exact sameInUtf8 d

theorem reencoded_eq {t u : Tag} (h : Reencoded t u) : u = reencode t := by
  obtain ⟨h1, h2, h3, h4, h5⟩ := h
  obtain ⟨uf, ui, ua⟩ := u
  obtain ⟨tf, ti, ta⟩ := t
  dsimp only at h1 h2 h3 h4 h5
  subst h1 h2
  have key : ua = (reencode ⟨uf, ui, ta⟩).atoms := by
    rw [reencode_atoms]
    refine List.ext_getElem? fun j => ?_
    rw [List.getElem?_map]
    have e3 := congrArg (·[j]?) h3
    have e4 := congrArg (·[j]?) h4
    simp only [List.getElem?_map] at e3 e4
    cases hb : ua[j]? with
    | none =>
      rw [hb] at e3
      cases ha : ta[j]? with
      | none => rfl
      | some a => rw [ha] at e3; cases e3
    | some b =>
      cases ha : ta[j]? with
      | none => rw [hb, ha] at e3; cases e3
      | some a =>
        rw [hb, ha] at e3 e4
        simp only [Option.map_some, Option.some.injEq] at e3 e4 ⊢
        obtain ⟨bi, bd⟩ := b
        dsimp only at e3 e4
        subst e3
        congr 1
        refine List.ext_getElem? fun k => ?_
        rw [List.getElem?_map]
        cases hd : a.data[k]? with
        | none =>
          rw [Option.map_none, List.getElem?_eq_none_iff, e4]
          exact List.getElem?_eq_none_iff.mp hd
        | some d =>
          have hk : k < bd.length := by rw [e4]; exact (List.getElem?_eq_some_iff.mp hd).1
          rw [Option.map_some, List.getElem?_eq_getElem hk]
          congr 1
          exact sameInUtf8_iff.mp (h5 j k a ⟨_, bd⟩ d bd[k] ha hb hd (List.getElem?_eq_getElem hk))
  rw [key]; rfl

theorem reencode_dataOf (t : Tag) (i : Ident) : (reencode t).dataOf i = (t.dataOf i).map reencodeData := by
  simp only [Tag.dataOf, reencode_atoms, findAtom, List.find?_map]
  have : ((fun a : AtomData => i.matches a.ident) ∘ fun a : AtomData => (⟨a.ident, a.data.map reencodeData⟩ : AtomData)) =
    fun a => i.matches a.ident := rfl
  rw [this]
  cases t.atoms.find? (fun a => i.matches a.ident) <;> rfl

theorem reencode_kinds (d : Data) : (reencodeData d).string? = d.string? ∧ (reencodeData d).bytes? = d.bytes? ∧
    (reencodeData d).image? = d.image? := by
  cases d <;> exact ⟨rfl, rfl, rfl⟩

theorem reencode_of (t : Tag) (i : Ident) : (reencode t).stringsOf i = t.stringsOf i ∧ (reencode t).bytesOf i = t.bytesOf i ∧
    (reencode t).imagesOf i = t.imagesOf i := by
  simp only [Tag.stringsOf, Tag.bytesOf, Tag.imagesOf, reencode_dataOf, List.filterMap_map]
  refine ⟨?_, ?_, ?_⟩ <;> congr 1 <;> funext d
  · exact (reencode_kinds d).1
  · exact (reencode_kinds d).2.1
  · exact (reencode_kinds d).2.2

theorem reencode_visible {t : Tag} (h : ∀ a ∈ t.atoms, Visible a) : ∀ a ∈ (reencode t).atoms, Visible a := by
  rw [reencode_atoms]
  intro a ha
  obtain ⟨b, hb, rfl⟩ := List.mem_map.mp ha
  exact ⟨by simpa using (h b hb).1, (h b hb).2⟩

theorem reencode_noDup {t : Tag} (h : t.NoDup) : (reencode t).NoDup := by
  rw [Tag.NoDup, (reencoded t).idents]; exact h

theorem reencode_noUtf16 (t : Tag) : ∀ a ∈ (reencode t).atoms, ∀ d ∈ a.data, ∀ s, d ≠ .utf16 s := by
  rw [reencode_atoms]
  intro a ha d hd s
  obtain ⟨b, hb, rfl⟩ := List.mem_map.mp ha
  obtain ⟨d', -, rfl⟩ := List.mem_map.mp hd
  cases d' <;> simp [reencodeData]

theorem reencode_same {t : Tag} (h : ∀ a ∈ t.atoms, ∀ d ∈ a.data, ∀ s, d ≠ .utf16 s) : reencode t = t := by
  refine (reencoded_eq ⟨rfl, rfl, rfl, rfl, ?_⟩).symm
  intro j k a b d d' ha hb hd hd'
  rw [ha] at hb; cases hb
  rw [hd] at hd'; cases hd'
  have := h a (List.mem_of_getElem? ha) d (List.mem_of_getElem? hd)
  exact ⟨fun s hs => absurd hs (this s), fun _ => rfl⟩

end Mp4
