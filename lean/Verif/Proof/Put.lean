import Verif.Proof.WriteSpec
import Verif.Proof.ReadSim
import Verif.Proof.Dump
/-
Properties of the specified result of writing.
-/
namespace Mp4
open Spec

/-! ### Changing the last child -/

theorem mapLast_nil {κ} (f : κ → Option κ) : mapLast f [] = [] := rfl

/-- The values selected by `sel`, the last one changed. -/
theorem sel_mapLast {κ β} {f : κ → Option κ} {sel : κ → Option β} {h : β → β} (ks : List κ)
    (h1 : ∀ k, f k = none → sel k = none) (h2 : ∀ k k', f k = some k' → ∃ b, sel k = some b ∧ sel k' = some (h b)) :
    (mapLast f ks).filterMap sel = (ks.filterMap sel).dropLast ++ ((ks.filterMap sel).getLast?.map h).toList := by
  rcases last_split (fun k => f k ≠ none) ks with hn | ⟨A, k, B, rfl, hk, hB⟩
  · have hs : ∀ k ∈ ks, sel k = none := fun k hk => h1 k (Decidable.not_not.mp (hn k hk))
    rw [mapLast, updLast_none (fun k hk => by rw [Decidable.not_not.mp (hn k hk)]; rfl), Option.getD_none,
      List.filterMap_eq_nil_iff.mpr hs]
    rfl
  · obtain ⟨k', hk'⟩ := Option.ne_none_iff_exists'.mp hk
    obtain ⟨b, hb, hb'⟩ := h2 k k' hk'
    have hs : B.filterMap sel = [] := List.filterMap_eq_nil_iff.mpr fun x hx => h1 x (Decidable.not_not.mp (hB x hx))
    rw [mapLast, updLast_split (ys := [k']) (by rw [hk']; rfl)
      (fun x hx => by rw [Decidable.not_not.mp (hB x hx)]; rfl), Option.getD_some]
    simp [List.filterMap_append, List.filterMap_cons, hs, hb, hb']

theorem LastOf_iff {κ β γ} {sel : κ → Option β} {R : β → γ → Prop} {ks : List κ} {r : Option γ} :
    LastOf sel R ks r ↔ (∀ b ∈ ks.filterMap sel, ∃ g, R b g) ∧
      match (ks.filterMap sel).getLast? with
      | some b => ∃ g, r = some g ∧ R b g
      | none => r = none := by
  unfold LastOf
  refine and_congr ⟨fun h b hb => ?_, fun h k hk b hb => h b (List.mem_filterMap.mpr ⟨k, hk, hb⟩)⟩ Iff.rfl
  obtain ⟨k, hk, hb⟩ := List.mem_filterMap.mp hb
  exact h k hk b hb

theorem LastOf_congr {κ β γ} {sel : κ → Option β} {R : β → γ → Prop} {ks ks' : List κ} {r : Option γ}
    (h : ks'.filterMap sel = ks.filterMap sel) (hl : LastOf sel R ks r) : LastOf sel R ks' r := by
  rw [LastOf_iff] at hl ⊢; rw [h]; exact hl

theorem LastOf_mapLast {κ β γ} {f : κ → Option κ} {sel : κ → Option β} {h : β → β} {R : β → γ → Prop} {ks : List κ} {r : Option γ}
    (h1 : ∀ k, f k = none → sel k = none) (h2 : ∀ k k', f k = some k' → ∃ b, sel k = some b ∧ sel k' = some (h b))
    (hR : ∀ b g, R b g → R (h b) g) (hl : LastOf sel R ks r) : LastOf sel R (mapLast f ks) r := by
  rw [LastOf_iff] at hl ⊢
  rw [sel_mapLast ks h1 h2]
  obtain ⟨ha, hb⟩ := hl
  cases hL : (ks.filterMap sel).getLast? with
  | none =>
    rw [hL] at hb
    have : ks.filterMap sel = [] := List.getLast?_eq_none_iff.mp hL
    rw [this]
    exact ⟨by simp, hb⟩
  | some b =>
    rw [hL] at hb
    obtain ⟨g, hg, hRg⟩ := hb
    refine ⟨fun c hc => ?_, ?_⟩
    · rcases List.mem_append.mp hc with hc | hc
      · exact ha c (List.dropLast_subset _ hc)
      · simp only [Option.map_some, Option.toList_some, List.mem_singleton] at hc
        subst hc
        exact ⟨g, hR b g hRg⟩
    · simp only [Option.map_some, Option.toList_some, List.getLast?_concat]
      exact ⟨g, hg, hR b g hRg⟩

theorem mapNode_none {α} {f : α → α} (k : Kid α) (h : Kid.mapNode f k = none) : Kid.sel k = none := by
  cases k with
  | node ext a => exact absurd h (by simp [Kid.mapNode])
  | raw b => rfl

theorem mapNode_some {α} {f : α → α} (k k' : Kid α) (h : Kid.mapNode f k = some k') :
    ∃ b, Kid.sel k = some b ∧ Kid.sel k' = some (f b) := by
  cases k with
  | node ext a => injection h with h; subst h; exact ⟨a, rfl, rfl⟩
  | raw b => exact absurd h (by simp [Kid.mapNode])

/-! ### The audio description is not affected by the chunk offsets -/

theorem stblAudio_shift {d : Int} {s : Stbl} {r} (h : StblAudio s r) : StblAudio (s.shift d) r := by
  obtain ⟨q, h1, h2⟩ := h
  refine ⟨q, LastOf_congr ?_ h1, h2⟩
  rw [Stbl.shift, box_sel_mapTable (by decide), box_sel_mapTable (by decide)]

theorem minfAudio_shift {d : Int} {s : Minf} {r} (h : MinfAudio s r) : MinfAudio (s.shift d) r := by
  obtain ⟨q, h1, h2⟩ := h
  exact ⟨q, LastOf_mapLast mapNode_none mapNode_some (fun _ _ => stblAudio_shift) h1, h2⟩

theorem mdiaAudio_shift {d : Int} {s : Mdia} {r} (h : MdiaAudio s r) : MdiaAudio (s.shift d) r := by
  obtain ⟨q, h1, h2⟩ := h
  exact ⟨q, LastOf_mapLast mapNode_none mapNode_some (fun _ _ => minfAudio_shift) h1, h2⟩

theorem trakAudio_shift {d : Int} {s : Spec.Trak} {r} (h : TrakAudio s r) : TrakAudio (s.shift d) r := by
  obtain ⟨q, h1, h2⟩ := h
  exact ⟨q, LastOf_mapLast mapNode_none mapNode_some (fun _ _ => mdiaAudio_shift) h1, h2⟩

/-! ### Content after writing -/

/-- Replace the last selected child. -/
theorem LastOf_replace {κ β γ} {sel : κ → Option β} {R : β → γ → Prop} {A B C : List κ} {k : κ} {b : β} {g : γ}
    {r : Option γ} {old : List κ} (h : LastOf sel R (A ++ old ++ B) r) (hC : ∀ x ∈ C, sel x = none) (hk : sel k = some b) (hR : R b g)
    (hB : ∀ x ∈ B, sel x = none) : LastOf sel R (A ++ (C ++ [k]) ++ B) (some g) := by
  rw [LastOf_iff] at h ⊢
  have h1 : B.filterMap sel = [] := List.filterMap_eq_nil_iff.mpr hB
  have h2 : C.filterMap sel = [] := List.filterMap_eq_nil_iff.mpr hC
  simp only [List.filterMap_append, h1, h2, List.filterMap_cons, hk, List.filterMap_nil, List.append_nil, List.nil_append] at h ⊢
  refine ⟨fun c hc => ?_, ?_⟩
  · rcases List.mem_append.mp hc with hc | hc
    · exact h.1 c (List.mem_append_left _ hc)
    · rw [List.mem_singleton] at hc; subst hc; exact ⟨g, hR⟩
  · rw [List.getLast?_concat]; exact ⟨g, rfl, hR⟩

theorem newKids_split (m : Meta) (atoms : List AtomData) :
    ∃ C, newKids m atoms = C ++ [ilstBox atoms] ∧ (C = [] ∧ (∃ b ∈ m.kids, b.fc = cc 'h' 'd' 'l' 'r') ∨
      C = [hdlrBox] ∧ ¬ ∃ b ∈ m.kids, b.fc = cc 'h' 'd' 'l' 'r') := by
  by_cases h : ∃ b ∈ m.kids, b.fc = cc 'h' 'd' 'l' 'r'
  · exact ⟨[], by rw [newKids, if_pos h]; rfl, .inl ⟨rfl, h⟩⟩
  · exact ⟨[hdlrBox], by rw [newKids, if_neg h]; rfl, .inr ⟨rfl, h⟩⟩

theorem metaPut_cases (m : Meta) (atoms : List AtomData) :
    ∃ A old B, m.kids = A ++ old ++ B ∧ m.put atoms = ⟨m.flags, A ++ newKids m atoms ++ B⟩ ∧
      (∀ x ∈ B, ¬ x.fc = cc 'i' 'l' 's' 't') ∧
      ((∃ il, old = [il] ∧ il.fc = cc 'i' 'l' 's' 't') ∨ old = [] ∧ B = [] ∧ ∀ x ∈ A, ¬ x.fc = cc 'i' 'l' 's' 't') := by
  rcases last_split (fun b : Box => b.fc = cc 'i' 'l' 's' 't') m.kids with hk | ⟨A, il, B, hk, hil, hB⟩
  · exact ⟨m.kids, [], [], by simp, by rw [metaPut_none hk]; simp, by simp, .inr ⟨rfl, rfl, hk⟩⟩
  · exact ⟨A, [il], B, by rw [hk]; simp, metaPut_split hk hil hB, hB, .inl ⟨il, rfl, hil⟩⟩

theorem metaItems_put {m : Meta} {atoms : List AtomData} {r items} (h : MetaItems m r) (hi : IlstBody (ilstBox atoms).body items) :
    MetaItems (m.put atoms) (some items) := by
  obtain ⟨A, old, B, hk, hp, hB, _⟩ := metaPut_cases m atoms
  obtain ⟨C, hC, hC'⟩ := newKids_split m atoms
  unfold MetaItems at h ⊢
  rw [hp, hC]
  rw [hk] at h
  refine LastOf_replace h ?_ (ilstBox_sel atoms) hi (fun x hx => by rw [Box.sel, if_neg (hB x hx)])
  intro x hx
  rcases hC' with ⟨rfl, _⟩ | ⟨rfl, _⟩
  · exact absurd hx (by simp)
  · rw [List.mem_singleton] at hx; subst hx; rw [Box.sel, if_neg (by decide)]

theorem udtaItems_put {u : Udta} {atoms : List AtomData} {r items} (h : UdtaItems u r) (hi : IlstBody (ilstBox atoms).body items) :
    UdtaItems (u.put atoms) (some items) := by
  obtain ⟨q, h1, _⟩ := h
  refine ⟨some (some items), ?_, rfl⟩
  rcases last_split isMeta u with hn | ⟨A, k, B, rfl, hk, hB⟩
  · rw [udtaPut_none hn]
    refine LastOf_snoc (sel := Kid.sel) (k := metaKid (newMeta atoms)) rfl (newMeta_content hi) h1.1
  · cases k with
    | raw b => exact absurd hk id
    | node ext m =>
      rw [udtaPut_split hB]
      obtain ⟨r', hr'⟩ := h1.1 (.node ext m) (by simp) m rfl
      have := LastOf_replace (old := [.node ext m]) (A := A) (B := B) (C := []) (k := Kid.node ext (m.put atoms)) (sel := Kid.sel)
        (by simpa using h1) (by simp) rfl (metaItems_put hr' hi) (fun x hx => by
          cases x with
          | node ext m => exact absurd trivial (hB _ hx)
          | raw b => rfl)
      simpa using this

theorem filterMap_mapTrak {β} (sel : MoovKid → Option β) (g : Spec.Trak → Spec.Trak) (h : ∀ ext t, sel (.trak ext t) = none) (ks : List MoovKid) :
    (ks.map (MoovKid.mapTrak g)).filterMap sel = ks.filterMap sel := by
  rw [List.filterMap_map]
  congr 1
  funext k
  cases k with
  | trak ext t => show sel _ = _; rw [MoovKid.mapTrak, h, h]
  | udta ext u => rfl
  | raw b => rfl

theorem trak_mapTrak (g : Spec.Trak → Spec.Trak) (ks : List MoovKid) :
    (ks.map (MoovKid.mapTrak g)).filterMap MoovKid.trak? = (ks.filterMap MoovKid.trak?).map g := by
  induction ks with
  | nil => rfl
  | cons k ks ih =>
    rw [List.map_cons, List.filterMap_cons, List.filterMap_cons, ih]
    cases k <;> rfl

theorem All2_append {α β} {R : α → β → Prop} : ∀ {as as' : List α} {bs bs' : List β}, All2 R as bs → All2 R as' bs' →
    All2 R (as ++ as') (bs ++ bs')
  | [], _, [], _, _, h => h
  | _ :: _, _, _ :: _, _, h1, h2 => ⟨h1.1, All2_append h1.2 h2⟩
  | [], _, _ :: _, _, h1, _ => h1.elim
  | _ :: _, _, [], _, h1, _ => h1.elim

theorem All2_split {α β} {R : α → β → Prop} : ∀ {as as' : List α} {bs : List β}, All2 R (as ++ as') bs →
    ∃ x y, bs = x ++ y ∧ All2 R as x ∧ All2 R as' y
  | [], _, bs, h => ⟨[], bs, rfl, trivial, h⟩
  | _ :: _, _, [], h => h.elim
  | a :: as, as', b :: bs, h => by
    obtain ⟨x, y, rfl, h1, h2⟩ := All2_split (as := as) h.2
    exact ⟨b :: x, y, rfl, ⟨h.1, h1⟩, h2⟩

theorem All2_mapl {α β} {R : α → β → Prop} {g : α → α} (hg : ∀ a b, R a b → R (g a) b) : ∀ {as : List α} {bs : List β},
    All2 R as bs → All2 R (as.map g) bs
  | [], [], _ => trivial
  | _ :: _, _ :: _, h => ⟨hg _ _ h.1, All2_mapl hg h.2⟩
  | [], _ :: _, h => h.elim
  | _ :: _, [], h => h.elim

/-- The movie before and after. -/
theorem moovPut_cases (g : Spec.Trak → Spec.Trak) (m : Spec.Moov) (atoms : List AtomData) :
    ((∀ k ∈ m, ¬ isUdta k) ∧ m.put g atoms = m.map (MoovKid.mapTrak g) ++ [udtaKid (newUdta atoms)]) ∨
    ∃ A ext u B, m = A ++ .udta ext u :: B ∧ (∀ k ∈ B, ¬ isUdta k) ∧
      m.put g atoms = A.map (MoovKid.mapTrak g) ++ .udta ext (u.put atoms) :: B := by
  rcases last_split isUdta m with h | ⟨A, k, B, rfl, hk, hB⟩
  · exact .inl ⟨h, put_none h⟩
  · cases k with
    | udta ext u => exact .inr ⟨A, ext, u, B, rfl, hB, put_split hB⟩
    | _ => exact absurd hk id

theorem udta_none {k : MoovKid} (h : ¬ isUdta k) : k.udta? = none := by
  cases k with
  | udta ext u => exact absurd trivial h
  | _ => rfl

theorem moovContent_put {m : Spec.Moov} {atoms : List AtomData} {g : Spec.Trak → Spec.Trak} {dur audio r items}
    (hg : ∀ t r, TrakAudio t r → TrakAudio (g t) r) (h : MoovContent m dur audio r) (hi : IlstBody (ilstBox atoms).body items) :
    MoovContent (m.put g atoms) dur audio (some items) := by
  obtain ⟨h1, ⟨as, h2, ha⟩, q, h3, _⟩ := h
  rcases moovPut_cases g m atoms with ⟨hn, hp⟩ | ⟨A, ext, u, B, rfl, hB, hp⟩
  · rw [hp]
    refine ⟨LastOf_congr ?_ h1, ⟨as, ?_, ha⟩, some (some items), ?_, rfl⟩
    · rw [List.filterMap_append, filterMap_mapTrak _ _ (fun _ _ => rfl)]
      show _ ++ [] = _
      simp
    · rw [List.filterMap_append, trak_mapTrak]
      show All2 _ (_ ++ []) _
      rw [List.append_nil]
      exact All2_mapl hg h2
    · refine LastOf_snoc (sel := MoovKid.udta?) (k := udtaKid (newUdta atoms)) rfl (newUdta_content hi) ?_
      intro k hk b hb
      obtain ⟨k', hk', rfl⟩ := List.mem_map.mp hk
      have hn' := hn k' hk'
      cases k' with
      | udta ext u => exact absurd trivial hn'
      | _ => exact absurd hb (by simp [MoovKid.mapTrak, MoovKid.udta?])
  · rw [hp]
    refine ⟨LastOf_congr ?_ h1, ⟨as, ?_, ha⟩, some (some items), ?_, rfl⟩
    · rw [List.filterMap_append, List.filterMap_append, filterMap_mapTrak _ _ (fun _ _ => rfl)]; rfl
    · rw [List.filterMap_append] at h2 ⊢
      obtain ⟨x, y, rfl, hx, hy⟩ := All2_split h2
      rw [trak_mapTrak]
      exact All2_append (All2_mapl hg hx) hy
    · obtain ⟨r', hr'⟩ := h3.1 (.udta ext u) (by simp) u rfl
      have h3' : LastOf MoovKid.udta? UdtaItems (A.map (MoovKid.mapTrak g) ++ [.udta ext u] ++ B) q := by
        refine LastOf_congr ?_ h3
        rw [List.append_assoc, List.filterMap_append, filterMap_mapTrak MoovKid.udta? _ (fun _ _ => rfl), List.filterMap_append]
        simp [List.filterMap_append, MoovKid.udta?]
      have := LastOf_replace (C := []) (k := MoovKid.udta ext (u.put atoms)) h3' (by simp) rfl (udtaItems_put hr' hi)
        (fun x hx => udta_none (hB x hx))
      simpa using this

/-- The content of the file after writing. -/
theorem put_content {f : File} {atoms : List AtomData} {t : Tag} {items} (h : f.Content t) (hi : IlstBody (ilstBox atoms).body items) :
    (f.put atoms).Content { ftyp := t.ftyp, info := t.info, atoms := group items } := by
  obtain ⟨dur, audio, r, h1, rfl⟩ := h
  refine ⟨dur, audio, some items, ?_, rfl⟩
  refine moovContent_put ?_ h1 hi
  intro t r ht
  split
  · exact trakAudio_shift ht
  · exact ht

end Mp4
