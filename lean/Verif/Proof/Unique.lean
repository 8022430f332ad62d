import Verif.Proof.Accept
/-
A byte string is the serialisation of at most one file.
-/
namespace Mp4
open Spec

theorem box_ser_inj {b b' : Box} {r r' : Bytes} (h : b.ser ++ r = b'.ser ++ r') (hf : b.Fits) (hf' : b'.Fits)
    (hl : (b.ser ++ r).length < 2^63) : b = b' ∧ r = r' := by
  have a1 : At (b.ser ++ r) 0 b.ser := At_intro' [] r rfl rfl
  have a2 : At (b.ser ++ r) 0 b'.ser := At_intro' [] r' (by rw [h]; rfl) rfl
  have h1 := parseHead_box a1 hf hl ⟨true, 0, 0, 0, fun _ => 0⟩
  have h2 := parseHead_box a2 hf' hl ⟨true, 0, 0, 0, fun _ => 0⟩
  rw [h1] at h2
  injection h2 with h2
  injection h2 with h2 h3
  obtain ⟨ext, fc, body⟩ := b
  obtain ⟨ext', fc', body'⟩ := b'
  simp only [Box.hd, Box.size, Head.mk.injEq, Size.mk.injEq] at h2
  obtain ⟨⟨rfl, h4⟩, rfl⟩ := h2
  rw [Nat.zero_add, Nat.zero_add] at h3
  have hb : body.length = body'.length := by omega
  have hlen : (Box.ser ⟨ext, fc, body⟩).length = (Box.ser ⟨ext, fc, body'⟩).length := by
    rw [Box.ser_length, Box.ser_length]; dsimp only; omega
  obtain ⟨k1, k2⟩ := List.append_inj h hlen
  have hh : (Box.head ⟨ext, fc, body⟩).length = (Box.head ⟨ext, fc, body'⟩).length := by
    rw [Box.head_length, Box.head_length]; exact h3
  exact ⟨by rw [show body = body' from (List.append_inj k1 hh).2], k2⟩

theorem serL_inj {κ : Type} {box : κ → Box} {W : κ → Prop} (hW : ∀ k k', W k → W k' → (box k).ser.length < 2^63 → box k = box k' → k = k') :
    ∀ {ks ks' : List κ}, serL box ks = serL box ks' → (∀ k ∈ ks, (box k).Fits ∧ W k) → (∀ k ∈ ks', (box k).Fits ∧ W k) →
      (serL box ks).length < 2^63 → ks = ks'
  | [], [], _, _, _, _ => rfl
  | [], k :: ks, h, _, _, _ => by
    rw [serL_nil, serL_cons] at h
    have := congrArg List.length h
    rw [List.length_append, Box.ser_length] at this
    have := (box k).headLen_pos
    simp only [List.length_nil] at *
    omega
  | k :: ks, [], h, _, _, _ => by
    rw [serL_nil, serL_cons] at h
    have := congrArg List.length h
    rw [List.length_append, Box.ser_length] at this
    have := (box k).headLen_pos
    simp only [List.length_nil] at *
    omega
  | k :: ks, k' :: ks', h, h1, h2, hl => by
    rw [serL_cons, serL_cons] at h
    rw [serL_cons] at hl
    obtain ⟨w1, w2⟩ := h1 k List.mem_cons_self
    obtain ⟨w1', w2'⟩ := h2 k' List.mem_cons_self
    obtain ⟨e1, e2⟩ := box_ser_inj h w1 w1' hl
    rw [List.length_append] at hl
    rw [hW k k' w2 w2' (by omega) e1, serL_inj hW e2 (fun x hx => h1 x (List.mem_cons_of_mem _ hx)) (fun x hx => h2 x (List.mem_cons_of_mem _ hx)) (by omega)]

theorem kid_inj {α : Type} {fc : Fourcc} {ser : α → Bytes} {R : α → Prop}
    (hR : ∀ a a', R a → R a' → (ser a).length < 2^63 → ser a = ser a' → a = a') (k k' : Kid α)
    (h : Kid.WF fc ser R k) (h' : Kid.WF fc ser R k') (hl : (k.box fc ser).ser.length < 2^63) (he : k.box fc ser = k'.box fc ser) : k = k' := by
  cases k with
  | node ext a =>
    cases k' with
    | node ext' a' =>
      simp only [Kid.box, Box.mk.injEq, true_and] at he
      rw [Box.ser_length] at hl
      dsimp only [Kid.box] at hl
      rw [he.1, hR a a' h.2 h'.2 (by omega) he.2]
    | raw b => simp only [Kid.box] at he; exact absurd (by rw [← he]) h'.2
  | raw b =>
    cases k' with
    | node ext' a' => simp only [Kid.box] at he; exact absurd (by rw [he]) h.2
    | raw b' => simp only [Kid.box] at he; rw [he]

theorem kids_inj {α : Type} {fc : Fourcc} {ser : α → Bytes} {R : α → Prop}
    (hR : ∀ a a', R a → R a' → (ser a).length < 2^63 → ser a = ser a' → a = a') {ks ks' : List (Kid α)}
    (h : ∀ k ∈ ks, Kid.WF fc ser R k) (h' : ∀ k ∈ ks', Kid.WF fc ser R k) (hl : (serL (Kid.box fc ser) ks).length < 2^63)
    (he : serL (Kid.box fc ser) ks = serL (Kid.box fc ser) ks') : ks = ks' :=
  serL_inj (W := fun k => Kid.WF fc ser R k) (kid_inj hR) he (fun k hk => ⟨(h k hk).1, h k hk⟩) (fun k hk => ⟨(h' k hk).1, h' k hk⟩) hl

theorem boxes_inj {bs bs' : List Box} (h : ∀ b ∈ bs, b.Fits) (h' : ∀ b ∈ bs', b.Fits) (hl : (serL id bs).length < 2^63)
    (he : serL id bs = serL id bs') : bs = bs' :=
  serL_inj (box := id) (W := fun _ => True) (fun _ _ _ _ _ h => h) he (fun b hb => ⟨h b hb, trivial⟩) (fun b hb => ⟨h' b hb, trivial⟩) hl

theorem stbl_inj (s s' : Stbl) (h : s.WF) (h' : s'.WF) (hl : s.ser.length < 2^63) (he : s.ser = s'.ser) : s = s' := boxes_inj h h' hl he
theorem minf_inj (s s' : Minf) (h : s.WF) (h' : s'.WF) (hl : s.ser.length < 2^63) (he : s.ser = s'.ser) : s = s' :=
  kids_inj stbl_inj h h' hl he
theorem mdia_inj (s s' : Spec.Mdia) (h : s.WF) (h' : s'.WF) (hl : s.ser.length < 2^63) (he : s.ser = s'.ser) : s = s' :=
  kids_inj minf_inj h h' hl he
theorem trak_inj (s s' : Spec.Trak) (h : s.WF) (h' : s'.WF) (hl : s.ser.length < 2^63) (he : s.ser = s'.ser) : s = s' :=
  kids_inj mdia_inj h h' hl he

theorem meta_inj (s s' : Meta) (h : s.WF) (h' : s'.WF) (hl : s.ser.length < 2^63) (he : s.ser = s'.ser) : s = s' := by
  obtain ⟨fl, ks⟩ := s
  obtain ⟨fl', ks'⟩ := s'
  have h1 : fl.length = 3 := h.1
  have h2 : fl'.length = 3 := h'.1
  simp only [Meta.ser, List.cons_append, List.cons.injEq, true_and] at he
  obtain ⟨k1, k2⟩ := List.append_inj he (by rw [h1, h2])
  simp only [Meta.ser, List.length_append, List.length_cons] at hl
  rw [k1, show ks = ks' from boxes_inj h.2 h'.2 (by omega) k2]

theorem udta_inj (s s' : Udta) (h : s.WF) (h' : s'.WF) (hl : s.ser.length < 2^63) (he : s.ser = s'.ser) : s = s' :=
  kids_inj meta_inj h h' hl he

theorem moovKid_inj (k k' : MoovKid) (h : k.WF) (h' : k'.WF) (hl : k.box.ser.length < 2^63) (he : k.box = k'.box) : k = k' := by
  cases k <;> cases k' <;> simp only [MoovKid.box, Box.mk.injEq] at he
  · rw [Box.ser_length] at hl
    dsimp only [MoovKid.box] at hl
    rw [he.1, trak_inj _ _ h.2 h'.2 (by omega) he.2.2]
  · exact absurd he.2.1 (by decide)
  · exact absurd (by rw [← he]) h'.2.1
  · exact absurd he.2.1 (by decide)
  · rw [Box.ser_length] at hl
    dsimp only [MoovKid.box] at hl
    rw [he.1, udta_inj _ _ h.2 h'.2 (by omega) he.2.2]
  · exact absurd (by rw [← he]) h'.2.2
  · exact absurd (by rw [he]) h.2.1
  · exact absurd (by rw [he]) h.2.2
  · rw [he]

theorem moov_inj (s s' : Spec.Moov) (h : s.WF) (h' : s'.WF) (hl : s.ser.length < 2^63) (he : s.ser = s'.ser) : s = s' :=
  serL_inj (W := MoovKid.WF) moovKid_inj he (fun k hk => ⟨(h k hk).1, h k hk⟩) (fun k hk => ⟨(h' k hk).1, h' k hk⟩) hl

/-- Splitting a list at the only member of a kind. -/
theorem split_unique {α : Type} (P : α → Prop) : ∀ {A A' : List α} {x x' : α} {B B' : List α}, A ++ x :: B = A' ++ x' :: B' →
    (∀ a ∈ A, ¬ P a) → (∀ a ∈ A', ¬ P a) → P x → P x' → A = A' ∧ x = x' ∧ B = B'
  | [], [], _, _, _, _, h, _, _, _, _ => by injection h with h1 h2; exact ⟨rfl, h1, h2⟩
  | [], a :: A', x, x', B, B', h, _, h2, hx, _ => by
    rw [List.nil_append, List.cons_append] at h
    injection h with h1 _
    exact absurd (h1 ▸ hx) (h2 a List.mem_cons_self)
  | a :: A, [], x, x', B, B', h, h1, _, _, hx => by
    rw [List.nil_append, List.cons_append] at h
    injection h with h2 _
    exact absurd (h2 ▸ hx) (h1 a List.mem_cons_self)
  | a :: A, a' :: A', x, x', B, B', h, h1, h2, hx, hx' => by
    rw [List.cons_append, List.cons_append] at h
    injection h with e1 e2
    obtain ⟨k1, k2, k3⟩ := split_unique P e2 (fun a ha => h1 a (List.mem_cons_of_mem _ ha)) (fun a ha => h2 a (List.mem_cons_of_mem _ ha)) hx hx'
    exact ⟨by rw [e1, k1], k2, k3⟩

theorem utf8_inj {s s' : Str} (h : utf8 s = utf8 s') : s = s' := by
  have h1 := utf8Dec_enc s
  have h2 := utf8Dec_enc s'
  rw [utf8Enc_spec] at h1 h2
  rw [h, h2] at h1
  injection h1 with h1
  exact h1.symm

theorem file_inj {f f' : File} (h : f.WF) (h' : f'.WF) (hl : f.ser.length < 2^63) (he : f.ser = f'.ser) : f = f' := by
  have assoc : ∀ f : File, f.ser = f.ftypBox.ser ++ serL id (f.pre ++ f.moovBox :: f.post) := fun f => by
    rw [serL_append, serL_cons]
    simp only [File.ser, List.append_assoc]; rfl
  have fits : ∀ f : File, f.WF → ∀ b ∈ f.pre ++ f.moovBox :: f.post, b.Fits := by
    intro f hf b hb
    rcases List.mem_append.mp hb with hb | hb
    · exact (hf.2.2.2.1 b hb).1
    · rcases List.mem_cons.mp hb with rfl | hb
      · exact hf.2.1
      · exact (hf.2.2.2.2 b hb).1
  rw [assoc f] at he hl
  rw [assoc f'] at he
  obtain ⟨e1, e2⟩ := box_ser_inj he h.1 h'.1 hl
  rw [List.length_append] at hl
  have e3 := boxes_inj (fits f h) (fits f' h') (by omega) e2
  obtain ⟨e4, e5, e6⟩ := split_unique (fun b : Box => b.fc = cc 'm' 'o' 'o' 'v') e3 (fun b hb => (h.2.2.2.1 b hb).2)
    (fun b hb => (h'.2.2.2.1 b hb).2) rfl rfl
  have hm : f.moov.ser.length < 2^63 := by
    rw [serL_append, serL_cons, List.length_append, List.length_append] at hl
    have : (id f.moovBox).ser.length = f.moovBox.headLen + f.moov.ser.length := Box.ser_length _
    omega
  obtain ⟨x1, x2, x3, x4, x5, x6⟩ := f
  obtain ⟨y1, y2, y3, y4, y5, y6⟩ := f'
  simp only [File.ftypBox, File.moovBox, Box.mk.injEq, true_and] at e1 e5
  rw [e1.1, utf8_inj e1.2, show x3 = y3 from e4, e5.1, show x5 = y5 from moov_inj _ _ h.2.2.1 h'.2.2.1 hm e5.2, show x6 = y6 from e6]

/-- Not both with one and with several movie atoms. -/
theorem file_ne_movies {f : File} {g : Movies} (h : f.WF) (h' : g.WF) (hl : f.ser.length < 2^63) : f.ser ≠ g.ser := by
  intro he
  have a1 : f.ser = f.ftypBox.ser ++ serL id (f.pre ++ f.moovBox :: f.post) := by
    rw [serL_append, serL_cons]
    simp only [File.ser, List.append_assoc]; rfl
  have a2 : g.ser = g.file.ftypBox.ser ++ serL id (g.file.pre ++ g.file.moovBox :: (g.file.post ++
      g.mid.map (Kid.box (cc 'm' 'o' 'o' 'v') Moov.ser) ++ g.byLast.moovBox :: g.post)) := by
    simp only [serL_append, serL_cons, serL_map, Movies.ser, File.ser, List.append_assoc]; rfl
  rw [a1] at he hl
  rw [a2] at he
  obtain ⟨-, e2⟩ := box_ser_inj he h.1 h'.1.1 hl
  rw [List.length_append] at hl
  have e3 := boxes_inj ?_ ?_ (by omega) e2
  · obtain ⟨e4, e5, e6⟩ := split_unique (fun b : Box => b.fc = cc 'm' 'o' 'o' 'v') e3 (fun b hb => (h.2.2.2.1 b hb).2)
      (fun b hb => (h'.1.2.2.2.1 b hb).2) rfl rfl
    exact (h.2.2.2.2 g.byLast.moovBox (by rw [e6]; simp)).2 rfl
  · intro b hb
    rcases List.mem_append.mp hb with hb | hb
    · exact (h.2.2.2.1 b hb).1
    · rcases List.mem_cons.mp hb with rfl | hb
      · exact h.2.1
      · exact (h.2.2.2.2 b hb).1
  · obtain ⟨⟨w1, w2, w3, w4, w5⟩, w6, w7, w8, w9⟩ := h'
    intro b hb
    simp only [List.mem_append, List.mem_cons, List.mem_map] at hb
    rcases hb with hb | rfl | (hb | ⟨k, hk, rfl⟩) | rfl | hb
    · exact (w4 b hb).1
    · exact w2
    · exact (w5 b hb).1
    · exact (w6 k hk).1
    · exact w7
    · exact (w9 b hb).1

end Mp4
