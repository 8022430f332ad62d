import Verif.Spec.Similar
import Verif.Proof.ReadSpec
/-
Similar files have the same content.
-/
namespace Mp4
open Spec

theorem All2_refl {α} {R : α → α → Prop} : ∀ {l : List α}, (∀ a ∈ l, R a a) → All2 R l l
  | [], _ => trivial
  | a :: l, h => ⟨h a (by simp), All2_refl fun b hb => h b (by simp [hb])⟩

theorem All2_map {α β α' β'} {R : α' → β' → Prop} {f : α → α'} {g : β → β'} : ∀ {as : List α} {bs : List β},
    All2 R (as.map f) (bs.map g) → All2 (fun a b => R (f a) (g b)) as bs
  | [], [], _ => trivial
  | _ :: _, _ :: _, h => ⟨h.1, All2_map h.2⟩
  | [], _ :: _, h => h.elim
  | _ :: _, [], h => h.elim

theorem All2_imp {α β} {R S : α → β → Prop} (h : ∀ a b, R a b → S a b) : ∀ {as : List α} {bs : List β},
    All2 R as bs → All2 S as bs
  | [], [], _ => trivial
  | _ :: _, _ :: _, h' => ⟨h _ _ h'.1, All2_imp h h'.2⟩
  | [], _ :: _, h => h.elim
  | _ :: _, [], h => h.elim

theorem All2_mem_right {α β} {R : α → β → Prop} {b} : ∀ {as : List α} {bs : List β}, All2 R as bs → b ∈ bs →
    ∃ a, R a b
  | x :: as, y :: bs, ⟨h1, h2⟩, hm => by
    rcases List.mem_cons.mp hm with rfl | hm
    · exact ⟨x, h1⟩
    · exact All2_mem_right h2 hm
  | _, [], _, hm => by simp at hm
  | [], _ :: _, h, _ => h.elim

theorem All2_getLast {α β} {R : α → β → Prop} : ∀ {as : List α} {bs : List β}, All2 R as bs →
    (as.getLast? = none ∧ bs.getLast? = none) ∨
    (∃ a b, as.getLast? = some a ∧ bs.getLast? = some b ∧ R a b)
  | [], [], _ => .inl ⟨rfl, rfl⟩
  | a :: as, b :: bs, ⟨h1, h2⟩ => by
    right
    rw [List.getLast?_cons, List.getLast?_cons]
    rcases All2_getLast h2 with ⟨h3, h4⟩ | ⟨x, y, h3, h4, h5⟩
    · exact ⟨a, b, by rw [h3]; rfl, by rw [h4]; rfl, h1⟩
    · exact ⟨x, y, by rw [h3]; rfl, by rw [h4]; rfl, h5⟩
  | [], _ :: _, h => h.elim
  | _ :: _, [], h => h.elim

/-- Related lists have a common value. -/
theorem lastOf_same {κ κ' β β' γ} {sel : κ → Option β} {sel' : κ' → Option β'} {R : β → γ → Prop}
    {R' : β' → γ → Prop} {ks : List κ} {js : List κ'}
    (h : All2 (fun b c => ∃ g, R b g ∧ R' c g) (ks.filterMap sel) (js.filterMap sel')) :
    ∃ r, LastOf sel R ks r ∧ LastOf sel' R' js r := by
  have h1 : ∀ k ∈ ks, ∀ b, sel k = some b → ∃ g, R b g := fun k hk b hb => by
    obtain ⟨c, g, hg, -⟩ := All2_mem h (List.mem_filterMap.mpr ⟨k, hk, hb⟩)
    exact ⟨g, hg⟩
  have h2 : ∀ k ∈ js, ∀ b, sel' k = some b → ∃ g, R' b g := fun k hk b hb => by
    obtain ⟨c, g, -, hg⟩ := All2_mem_right h (List.mem_filterMap.mpr ⟨k, hk, hb⟩)
    exact ⟨g, hg⟩
  rcases All2_getLast h with ⟨h3, h4⟩ | ⟨x, y, h3, h4, g, h5, h6⟩
  · refine ⟨none, ⟨h1, ?_⟩, ⟨h2, ?_⟩⟩
    · rw [h3]
    · rw [h4]
  · refine ⟨some g, ⟨h1, ?_⟩, ⟨h2, ?_⟩⟩
    · rw [h3]; exact ⟨g, rfl, h5⟩
    · rw [h4]; exact ⟨g, rfl, h6⟩

theorem join_same {κ κ' β β' γ} {sel : κ → Option β} {sel' : κ' → Option β'} {R : β → Option γ → Prop}
    {R' : β' → Option γ → Prop} {ks : List κ} {js : List κ'}
    (h : All2 (fun b c => ∃ g, R b g ∧ R' c g) (ks.filterMap sel) (js.filterMap sel')) :
    ∃ r, (∃ q, LastOf sel R ks q ∧ r = q.join) ∧ (∃ q, LastOf sel' R' js q ∧ r = q.join) := by
  obtain ⟨q, h1, h2⟩ := lastOf_same h
  exact ⟨q.join, ⟨q, h1, rfl⟩, ⟨q, h2, rfl⟩⟩

theorem stbl_same {s s' : Stbl} (h : All2 (SameAs StsdBody) s.core s'.core) : SameAs StblAudio s s' :=
  join_same h
theorem minf_same {s s' : Minf} (h : All2 (All2 (SameAs StsdBody)) s.core s'.core) : SameAs MinfAudio s s' :=
  join_same (All2_imp (fun _ _ => stbl_same) (All2_map h))
theorem mdia_same {s s' : Mdia} (h : All2 (All2 (All2 (SameAs StsdBody))) s.core s'.core) : SameAs MdiaAudio s s' :=
  join_same (All2_imp (fun _ _ => minf_same) (All2_map h))
theorem trak_same {s s' : Spec.Trak} (h : All2 (All2 (All2 (All2 (SameAs StsdBody)))) s.core s'.core) :
    SameAs TrakAudio s s' :=
  join_same (All2_imp (fun _ _ => mdia_same) (All2_map h))
theorem meta_same {m m' : Meta} (h : All2 (SameAs IlstBody) m.core m'.core) : SameAs MetaItems m m' :=
  lastOf_same h
theorem udta_same {u u' : Udta} (h : All2 (All2 (SameAs IlstBody)) u.core u'.core) : SameAs UdtaItems u u' :=
  join_same (All2_imp (fun _ _ => meta_same) (All2_map h))

theorem traks_same {R : Spec.Trak → Option (List Config) → Prop} : ∀ {as bs : List Spec.Trak}, All2 (SameAs R) as bs →
    ∃ cs, All2 R as cs ∧ All2 R bs cs
  | [], [], _ => ⟨[], trivial, trivial⟩
  | a :: as, b :: bs, ⟨⟨c, h1, h2⟩, h⟩ => by
    obtain ⟨cs, h3, h4⟩ := traks_same h
    exact ⟨c :: cs, ⟨h1, h3⟩, ⟨h2, h4⟩⟩
  | [], _ :: _, h => h.elim
  | _ :: _, [], h => h.elim

/-- Similar files have a common content. -/
theorem similar_content {f g : File} (h : Similar f g) : ∃ t, f.Content t ∧ g.Content t := by
  obtain ⟨h0, h1, h2, h3⟩ := h
  obtain ⟨dur, d1, d2⟩ := lastOf_same h1
  obtain ⟨as, a1, a2⟩ := traks_same (All2_imp (fun _ _ => trak_same) (All2_map h2))
  have h4 : All2 (SameAs UdtaItems) (f.moov.filterMap MoovKid.udta?) (g.moov.filterMap MoovKid.udta?) :=
    All2_imp (fun _ _ => udta_same) (All2_map h3)
  obtain ⟨items, i1, i2⟩ := join_same h4
  exact ⟨_, ⟨dur, _, items, ⟨d1, ⟨as, a1, rfl⟩, i1⟩, rfl⟩, ⟨dur, _, items, ⟨d2, ⟨as, a2, rfl⟩, i2⟩, by rw [h0]⟩⟩

/-! ### Same core: same content -/

theorem lastOf_same_refl {κ β γ} {sel : κ → Option β} {R : β → γ → Prop} {ks : List κ} {r}
    (h : LastOf sel R ks r) : All2 (SameAs R) (ks.filterMap sel) (ks.filterMap sel) := by
  refine All2_refl fun b hb => ?_
  obtain ⟨k, hk, hb⟩ := List.mem_filterMap.mp hb
  obtain ⟨g, hg⟩ := h.1 k hk b hb
  exact ⟨g, hg, hg⟩

theorem map_refl {α β} {R : β → β → Prop} {f : α → β} {l : List α} (h : All2 (fun a b => R (f a) (f b)) l l) :
    All2 R (l.map f) (l.map f) := by
  refine All2_refl fun b hb => ?_
  obtain ⟨a, ha, rfl⟩ := List.mem_map.mp hb
  have : ∀ l : List α, All2 (fun a b => R (f a) (f b)) l l → a ∈ l → R (f a) (f a) := by
    intro l
    induction l with
    | nil => intro _ hm; simp at hm
    | cons x l ih =>
      rintro ⟨h1, h2⟩ hm
      rcases List.mem_cons.mp hm with rfl | hm
      · exact h1
      · exact ih h2 hm
  exact this l h ha

/-- Lift reflexivity through one level. -/
theorem level_refl {κ β γ τ} {sel : κ → Option β} {R : β → γ → Prop} {core : β → τ} {S : τ → τ → Prop}
    {ks : List κ} {r} (h : LastOf sel R ks r) (hl : ∀ b g, R b g → S (core b) (core b)) :
    All2 S ((ks.filterMap sel).map core) ((ks.filterMap sel).map core) := by
  refine map_refl (All2_refl fun b hb => ?_)
  obtain ⟨k, hk, hb⟩ := List.mem_filterMap.mp hb
  obtain ⟨g, hg⟩ := h.1 k hk b hb
  exact hl b g hg

theorem content_similar {f : File} {t} (h : f.Content t) : Similar f f := by
  obtain ⟨dur, audio, items, ⟨h1, ⟨as, h2, -⟩, ⟨q, h3, -⟩⟩, -⟩ := h
  refine ⟨rfl, lastOf_same_refl h1, ?_, ?_⟩
  · refine map_refl (All2_refl fun b hb => ?_)
    obtain ⟨g, q, hq, -⟩ := All2_mem h2 hb
    refine level_refl hq fun b g ⟨q, hq, _⟩ => ?_
    refine level_refl hq fun b g ⟨q, hq, _⟩ => ?_
    refine level_refl hq fun b g ⟨q, hq, _⟩ => ?_
    exact lastOf_same_refl hq
  · refine level_refl h3 fun b g ⟨q, hq, _⟩ => ?_
    exact level_refl hq fun b g hg => lastOf_same_refl hg

theorem sameCore_similar {f g : File} {t} (h : SameCore f g) (hc : f.Content t) : Similar f g := by
  have := content_similar hc
  exact ⟨h.1, h.2 ▸ this.2.1, h.2 ▸ this.2.2.1, h.2 ▸ this.2.2.2⟩

/-- The content of a well-formed file is unique. -/
theorem content_unique {f : File} {t t'} (hw : f.WF) (hl : f.ser.length < 2^63 - 1) (h : f.Content t)
    (h' : f.Content t') : t = t' := by
  have hF : Fit { checked := true, fuel := 2^63, maxPos := 2^63, cap := 0, rcur := id } ([] ++ f.ser ++ []) :=
    ⟨by simp; omega, by simp; omega, by simp; omega⟩
  have h1 := read_spec hF hw h
  have h2 := read_spec hF hw h'
  rw [h1] at h2
  exact Out.ok.inj h2

/-! ### Leaves -/

theorem serL_filter_le {κ} (box : κ → Box) (p : κ → Bool) : ∀ ks : List κ,
    (serL box (ks.filter p)).length ≤ (serL box ks).length
  | [] => Nat.le_refl _
  | k :: ks => by
    have := serL_filter_le box p ks
    rw [List.filter_cons]
    split
    · rw [serL_cons, serL_cons, List.length_append, List.length_append]; omega
    · rw [serL_cons, List.length_append]; omega

theorem filterMap_filter_of {α β} {f : α → Option β} {p : α → Bool} (h : ∀ a, p a = false → f a = none) :
    ∀ l : List α, (l.filter p).filterMap f = l.filterMap f
  | [] => rfl
  | a :: l => by
    rw [List.filter_cons]
    cases hp : p a with
    | true => rw [if_pos rfl, List.filterMap_cons, List.filterMap_cons, filterMap_filter_of h l]
    | false => rw [if_neg (by simp), List.filterMap_cons_none (h a hp), filterMap_filter_of h l]

theorem trim_decoded (x : Entry) : x.trim.decoded = x.decoded := by
  cases x with
  | free => rfl
  | item ext fc parts =>
    simp only [Entry.trim, Entry.decoded, itemKey]
    rw [filterMap_filter_of (f := Part.value?) (by intro a h; cases a <;> first | rfl | simp [Part.known] at h),
      filterMap_filter_of (f := Part.mean?) (by intro a h; cases a <;> first | rfl | simp [Part.known] at h),
      filterMap_filter_of (f := Part.name?) (by intro a h; cases a <;> first | rfl | simp [Part.known] at h)]

theorem trim_WF {x : Entry} (h : x.WF) : x.trim.WF := by
  cases x with
  | free => exact h
  | item ext fc parts =>
    obtain ⟨h1, h2, h3, h4⟩ := h
    refine ⟨fun he => ?_, h2, ?_, ?_⟩
    · have := h1 he
      have hl := serL_filter_le Part.box Part.known parts
      simp only [Entry.box] at this
      simp only [Entry.trim, Entry.box]
      omega
    · intro p hp; exact h3 p ((List.mem_filter.mp hp).1)
    · rw [filterMap_filter_of (f := Part.value?) (by intro a h; cases a <;> first | rfl | simp [Part.known] at h)]; exact h4

theorem ilst_trim {es : List Entry} (h : ∀ x ∈ es, x.WF) :
    SameAs IlstBody (serL Entry.box es) (serL Entry.box ((es.filter Entry.isItem).map Entry.trim)) := by
  refine ⟨es.filterMap Entry.decoded, ⟨es, h, rfl, rfl⟩, ⟨_, ?_, rfl, ?_⟩⟩
  · intro x hx
    obtain ⟨y, hy, rfl⟩ := List.mem_map.mp hx
    exact trim_WF (h y ((List.mem_filter.mp hy).1))
  · rw [List.filterMap_map, show Entry.decoded ∘ Entry.trim = Entry.decoded from funext trim_decoded,
      filterMap_filter_of]
    intro a ha
    cases a with
    | item => simp [Entry.isItem] at ha
    | free => rfl

theorem noExt_decoded (x : Entry) : x.noExt.decoded = x.decoded := by
  cases x with
  | free => rfl
  | item ext fc parts =>
    simp only [Entry.noExt, Entry.decoded, itemKey, List.filterMap_map]
    rw [show Part.value? ∘ Part.noExt = Part.value? from funext fun p => by cases p <;> rfl,
      show Part.mean? ∘ Part.noExt = Part.mean? from funext fun p => by cases p <;> rfl,
      show Part.name? ∘ Part.noExt = Part.name? from funext fun p => by cases p <;> rfl]

theorem ilst_noExt {es es' : List Entry} (h : ∀ x ∈ es, x.WF) (h' : ∀ x ∈ es', x.WF)
    (he : es.map Entry.noExt = es'.map Entry.noExt) :
    SameAs IlstBody (serL Entry.box es) (serL Entry.box es') := by
  refine ⟨es.filterMap Entry.decoded, ⟨es, h, rfl, rfl⟩, ⟨es', h', rfl, ?_⟩⟩
  have hd : Entry.decoded ∘ Entry.noExt = Entry.decoded := funext noExt_decoded
  rw [← hd, ← List.filterMap_map, ← List.filterMap_map, he]

theorem filterMap_sel_same {R : Bytes → α → Prop} {fc : Fourcc} : ∀ {as bs : List Box},
    All2 (fun a b : Box => a.fc = b.fc ∧ (a.fc = fc → SameAs R a.body b.body)) as bs →
    All2 (SameAs R) (as.filterMap (Box.sel fc)) (bs.filterMap (Box.sel fc))
  | [], [], _ => trivial
  | a :: as, b :: bs, ⟨⟨h1, h2⟩, h3⟩ => by
    have ih := filterMap_sel_same h3
    by_cases hf : a.fc = fc
    · rw [List.filterMap_cons_some (show Box.sel fc a = some a.body by rw [Box.sel, if_pos hf]),
        List.filterMap_cons_some (show Box.sel fc b = some b.body by rw [Box.sel, if_pos (h1 ▸ hf)])]
      exact ⟨h2 hf, ih⟩
    · rw [List.filterMap_cons_none (show Box.sel fc a = none by rw [Box.sel, if_neg hf]),
        List.filterMap_cons_none (show Box.sel fc b = none by rw [Box.sel, if_neg (h1 ▸ hf)])]
      exact ih
  | [], _ :: _, h => h.elim
  | _ :: _, [], h => h.elim

/-- Sample descriptions whose entries differ in unknown entries, sizes and encodings of `mp4a`. -/
theorem stsd_same {fl fl' ct ct' : Bytes} {es es' : List Box} (h1 : fl.length = 3) (h1' : fl'.length = 3)
    (h2 : ct.length = 4) (h2' : ct'.length = 4) (h3 : ∀ x ∈ es, x.Fits) (h3' : ∀ x ∈ es', x.Fits)
    (h : All2 (SameAs Mp4aBody) (es.filterMap (Box.sel (cc 'm' 'p' '4' 'a')))
      (es'.filterMap (Box.sel (cc 'm' 'p' '4' 'a')))) :
    SameAs StsdBody (0 :: fl ++ ct ++ serL id es) (0 :: fl' ++ ct' ++ serL id es') := by
  obtain ⟨r, h4, h5⟩ := lastOf_same h
  exact ⟨r, ⟨fl, ct, es, h1, h2, h3, rfl, h4⟩, ⟨fl', ct', es', h1', h2', h3', rfl, h5⟩⟩

/-- Audio sample entries whose descriptors are in boxes with different sizes. -/
theorem mp4a_same {front front' rest rest' body : Bytes} {ext ext' : Bool} {cs : List Config}
    (h1 : front.length = 28) (h1' : front'.length = 28)
    (h2 : (⟨ext, cc 'e' 's' 'd' 's', body⟩ : Box).Fits) (h2' : (⟨ext', cc 'e' 's' 'd' 's', body⟩ : Box).Fits)
    (h : EsdsBody body cs) :
    SameAs Mp4aBody (front ++ (⟨ext, cc 'e' 's' 'd' 's', body⟩ : Box).ser ++ rest)
      (front' ++ (⟨ext', cc 'e' 's' 'd' 's', body⟩ : Box).ser ++ rest') :=
  ⟨cs, ⟨front, _, rest, h1, rfl, h2, rfl, h⟩, ⟨front', _, rest', h1', rfl, h2', rfl, h⟩⟩

end Mp4
