import Verif.Spec.Written
import Verif.Proof.PutPut
/-
The specified result of writing satisfies the relations of Spec/Written.lean.
-/
namespace Mp4
open Spec

theorem mapLast_map {κ β} {f : κ → Option κ} {e : κ → β} {ks : List κ} (h : ∀ k, IsLast f ks k → ∀ k', f k = some k' → e k' = e k) :
    (mapLast f ks).map e = ks.map e := by
  rcases last_split (fun k => f k ≠ none) ks with hn | ⟨A, k, B, rfl, hk, hB⟩
  · rw [mapLast_none (fun k hk => Decidable.not_not.mp (hn k hk))]
  · obtain ⟨k', hk'⟩ := Option.ne_none_iff_exists'.mp hk
    have hB' := fun k hk => Decidable.not_not.mp (hB k hk)
    rw [mapLast_split hk' hB']
    simp [h k ⟨A, B, rfl, hB'⟩ k' hk']

theorem table_blank {w : Nat} (hw : w = 4 ∨ w = 8) {φ : Nat → Nat} {b : Box} (h : TableWF w b.body)
    (hfc : b.fc = cc 's' 't' 'c' 'o' ∨ b.fc = cc 'c' 'o' '6' '4') : (⟨b.ext, b.fc, mapOffsets w φ b.body⟩ : Box).blank = b.blank := by
  have hl := mapOffsets_length hw h φ
  obtain ⟨flags, n, hf, hn, h8, hbl, ho⟩ := h
  have h8l : (b.body.take 8).length = 8 := by rw [h8]; simp [hf, be32_length]
  unfold Box.blank
  simp only [hl, if_pos hfc]
  rw [mapOffsets, List.take_left' h8l]

theorem stbl_blank {d : Int} {s : Stbl} (h : s.Tables) : (s.shift d).blank = s.blank := by
  unfold Stbl.blank Stbl.shift
  rw [mapLast_map, mapLast_map]
  · intro k hk k' hk'
    split at hk'
    · rename_i hfc
      injection hk' with hk'
      subst hk'
      exact table_blank (.inl rfl) (h.1 _ (hk.table (φ := fun b => ⟨b.ext, b.fc, mapOffsets 4 (shiftBy d) b.body⟩) hfc)) (.inl hfc)
    · exact absurd hk' (by simp)
  · intro k hk k' hk'
    split at hk'
    · rename_i hfc
      injection hk' with hk'
      subst hk'
      have := hk.table (φ := fun b => ⟨b.ext, b.fc, mapOffsets 8 (shiftBy d) b.body⟩) hfc
      rw [box_sel_mapTable (by decide) s] at this
      exact table_blank (.inr rfl) (h.2 _ this) (.inr hfc)
    · exact absurd hk' (by simp)

theorem node_blank {α} {f g : α → α} {ks : List (Kid α)} (h : ∀ a, (ks.filterMap Kid.sel).getLast? = some a → g (f a) = g a) :
    (mapLast (Kid.mapNode f) ks).map (Kid.map g) = ks.map (Kid.map g) := by
  refine mapLast_map fun k hk k' hk' => ?_
  cases k with
  | node ext a =>
    injection hk' with hk'
    subst hk'
    rw [Kid.map, Kid.map, h a hk.kid]
  | raw b => exact absurd hk' (by simp [Kid.mapNode])

theorem trak_blank {d : Int} {t : Spec.Trak} (h : t.Tables) : (t.shift d).blank = t.blank :=
  node_blank fun a ha => node_blank fun a' ha' => node_blank fun a'' ha'' => stbl_blank (h a ha a' ha' a'' ha'')

theorem metaKept_put (m : Meta) (atoms : List AtomData) : MetaKept m (m.put atoms) := by
  obtain ⟨A, old, B, hk, hp, hB, hcase⟩ := metaPut_cases m atoms
  rw [hp]
  refine ⟨rfl, A, old, newKids m atoms, B, hk, rfl, ?_, ?_, ?_⟩
  · rcases hcase with ⟨il, rfl, _⟩ | ⟨rfl, _⟩ <;> simp
  · rcases hcase with ⟨il, rfl, h⟩ | ⟨rfl, _⟩
    · intro b hb; rw [List.mem_singleton.mp hb]; exact h
    · simp
  · obtain ⟨C, hC, ⟨rfl, h⟩ | ⟨rfl, h⟩⟩ := newKids_split m atoms
    · exact .inl ⟨ilstBox atoms, hC, rfl⟩
    · exact .inr ⟨hdlrBox, ilstBox atoms, hC, rfl, rfl, fun b hb hfc => h ⟨b, hb, hfc⟩⟩

theorem sel_none_of {u : Udta} (h : ∀ k ∈ u, ¬ isMeta k) : u.filterMap Kid.sel = [] := by
  refine List.filterMap_eq_nil_iff.mpr fun k hk => ?_
  cases k with
  | node ext m => exact absurd trivial (h _ hk)
  | raw b => rfl

theorem udtaKept_put (u : Udta) (atoms : List AtomData) : UdtaKept u (u.put atoms) := by
  rcases last_split isMeta u with hn | ⟨A, k, B, rfl, hk, hB⟩
  · exact .inr ⟨sel_none_of hn, _, _, udtaPut_none hn⟩
  · cases k with
    | raw b => exact absurd hk id
    | node ext m => exact .inl ⟨A, ext, m, _, B, rfl, udtaPut_split hB, metaKept_put m atoms⟩

theorem All2_kidKept {g : Spec.Trak → Spec.Trak} : ∀ {ks : List MoovKid}, (∀ ext t, MoovKid.trak ext t ∈ ks → (g t).blank = t.blank) →
    All2 KidKept ks (ks.map (MoovKid.mapTrak g))
  | [], _ => trivial
  | k :: ks, h => by
    refine ⟨?_, All2_kidKept (fun ext t ht => h ext t (by simp [ht]))⟩
    cases k with
    | trak ext t => exact ⟨rfl, h ext t (by simp)⟩
    | udta ext u => rfl
    | raw b => rfl

theorem udta_none_of {m : List MoovKid} (h : ∀ k ∈ m, ¬ isUdta k) : m.filterMap MoovKid.udta? = [] :=
  List.filterMap_eq_nil_iff.mpr fun k hk => udta_none (h k hk)

theorem put_kept {f : File} {atoms : List AtomData} (ht : f.MediaBehind → f.moov.Tables) : MoovKept f.moov (f.put atoms).moov := by
  have hg : ∀ ext t, MoovKid.trak ext t ∈ f.moov → ((if f.MediaBehind then Spec.Trak.shift (f.growth atoms) else id) t).blank = t.blank := by
    intro ext t h
    split
    · rename_i hm; exact trak_blank (ht hm ext t h)
    · rfl
  show MoovKept f.moov (f.moov.put _ atoms)
  rcases moovPut_cases (if f.MediaBehind then Spec.Trak.shift (f.growth atoms) else id) f.moov atoms with ⟨hn, hp⟩ | ⟨A, ext, u, B, he, hB, hp⟩
  · rw [hp]; exact .inr ⟨udta_none_of hn, _, _, _, rfl, All2_kidKept hg⟩
  · rw [hp]
    refine .inl ⟨A, _, ext, u, _, B, B, he, rfl, udtaKept_put u atoms, All2_kidKept (fun ext t ht => hg ext t (by rw [he]; simp [ht])), ?_⟩
    have := All2_kidKept (g := id) (ks := B) (fun _ _ _ => rfl)
    rwa [mapTrak_id] at this

/-! ### Lengths -/

theorem lastIlst_split {m : Meta} {A B : List Box} {il : Box} (hk : m.kids = A ++ il :: B) (hil : il.fc = cc 'i' 'l' 's' 't')
    (hB : ∀ x ∈ B, ¬ x.fc = cc 'i' 'l' 's' 't') : m.lastIlst = some il := by
  have : B.filter (fun x => decide (x.fc = cc 'i' 'l' 's' 't')) = [] := List.filter_eq_nil_iff.mpr fun x hx => by simpa using hB x hx
  rw [Meta.lastIlst, hk, List.filter_append, List.filter_cons_of_pos (by simpa using hil), this]; simp

theorem lastIlst_none {m : Meta} (h : ∀ x ∈ m.kids, ¬ x.fc = cc 'i' 'l' 's' 't') : m.lastIlst = none := by
  rw [Meta.lastIlst, List.filter_eq_nil_iff.mpr fun x hx => by simpa using h x hx]; rfl

theorem serL_len_append {κ} (box : κ → Box) (A B : List κ) : (serL box (A ++ B)).length = (serL box A).length + (serL box B).length := by
  rw [serL_append, List.length_append]

/-- The item list in effect, as bytes. -/
def ilBytes : Option Box → Bytes
  | some il => il.ser
  | none => []

theorem removed_eq (m : Spec.Moov) : m.removed = ilBytes ((m.lastUdta.bind Udta.lastMeta).bind Meta.lastIlst) := by
  unfold Spec.Moov.removed ilBytes; rfl

theorem metaPut_length (m : Meta) (atoms : List AtomData) :
    (m.put atoms).ser.length + (ilBytes m.lastIlst).length = m.ser.length + (m.inserted atoms).length := by
  obtain ⟨A, old, B, hk, hp, hB, hcase⟩ := metaPut_cases m atoms
  have hnew : (serL id (newKids m atoms)).length
      = (m.inserted atoms).length := by
    unfold newKids Meta.inserted; split <;> simp [serL_cons, serL_nil]
  have hold : (ilBytes m.lastIlst).length = (serL id old).length := by
    rcases hcase with ⟨il, rfl, hil⟩ | ⟨rfl, rfl, hA⟩
    · rw [lastIlst_split (by simpa using hk) hil hB]; simp [ilBytes, serL_cons, serL_nil]
    · rw [lastIlst_none (by rw [hk]; simpa using hA)]; rfl
  rw [hold, ← hnew, hp]
  simp only [Meta.ser, hk, List.length_append, List.length_cons, serL_len_append]
  omega

theorem lastMeta_split {A B : Udta} {ext m} (hB : ∀ x ∈ B, ¬ isMeta x) : Udta.lastMeta (A ++ .node ext m :: B) = some m := by
  rw [Udta.lastMeta, List.filterMap_append, List.filterMap_cons, sel_none_of hB]
  simp [Kid.sel]

theorem lastUdta_split {A B : List MoovKid} {ext u} (hB : ∀ x ∈ B, ¬ isUdta x) : Spec.Moov.lastUdta (A ++ .udta ext u :: B) = some u := by
  rw [Spec.Moov.lastUdta, List.filterMap_append, List.filterMap_cons, udta_none_of hB]
  simp [MoovKid.udta?]

theorem udtaPut_length (u : Udta) (atoms : List AtomData) :
    (u.put atoms).ser.length + (ilBytes (u.lastMeta.bind Meta.lastIlst)).length = u.ser.length + (u.inserted atoms).length := by
  rcases last_split isMeta u with hn | ⟨A, k, B, rfl, hk, hB⟩
  · have : u.lastMeta = none := by rw [Udta.lastMeta, sel_none_of hn]; rfl
    rw [Udta.inserted, this, udtaPut_none hn]
    simp [ilBytes, Udta.ser, serL_len_append, serL_cons, serL_nil]
  · cases k with
    | raw b => exact absurd hk id
    | node ext m =>
      have hm := metaPut_length m atoms
      rw [Udta.inserted, lastMeta_split hB, udtaPut_split hB]
      simp only [Option.bind_some, Udta.ser, serL_len_append, serL_cons, List.length_append, Box.ser_length, Kid.box, Box.headLen]
      omega

theorem put_id_length (m : Spec.Moov) (atoms : List AtomData) :
    (m.put id atoms).ser.length + m.removed.length = m.ser.length + (m.inserted atoms).length := by
  rcases moovPut_cases id m atoms with ⟨hn, hp⟩ | ⟨A, ext, u, B, rfl, hB, hp⟩
  · have : m.lastUdta = none := by rw [Spec.Moov.lastUdta, udta_none_of hn]; rfl
    rw [hp, removed_eq, Spec.Moov.inserted, this, mapTrak_id]
    simp [ilBytes, Spec.Moov.ser, serL_len_append, serL_cons, serL_nil]
  · have hu := udtaPut_length u atoms
    rw [hp, removed_eq, Spec.Moov.inserted, lastUdta_split hB, mapTrak_id]
    simp only [Option.bind_some, Spec.Moov.ser, serL_len_append, serL_cons, List.length_append, Box.ser_length, MoovKid.box, Box.headLen]
    omega

theorem put_ser_length {f : File} {atoms : List AtomData} (ht : f.MediaBehind → f.moov.Tables) :
    (f.put atoms).ser.length + f.moov.removed.length = f.ser.length + (f.moov.inserted atoms).length := by
  have h1 := put_id_length f.moov atoms
  have h2 := put_length (a := atoms) (shift_ser_length ht (f.growth atoms))
  simp only [File.ser, List.length_append, Box.ser_length]
  have e1 : (f.put atoms).moovBox.body.length = (f.moov.put id atoms).ser.length := h2
  have e2 : f.moovBox.body.length = f.moov.ser.length := rfl
  have e3 : (f.put atoms).moovBox.headLen = f.moovBox.headLen := rfl
  have e4 : (f.put atoms).ftypBox = f.ftypBox := rfl
  have e5 : (f.put atoms).pre = f.pre := rfl
  have e6 : (f.put atoms).post = f.post := rfl
  rw [e1, e2, e3, e4, e5, e6]
  omega

theorem growth_eq (f : File) (atoms : List AtomData) :
    f.growth atoms = (f.moov.inserted atoms).length - (f.moov.removed.length : Int) := by
  have := put_id_length f.moov atoms
  unfold File.growth
  omega

/-! ### Chunk offsets -/

theorem put_traks {m : Spec.Moov} {g : Spec.Trak → Spec.Trak} {atoms : List AtomData} (h : m.TraksFirst ∨ ∀ t, g t = t) :
    (m.put g atoms).traks = m.traks.map g := by
  unfold Spec.Moov.traks
  rcases moovPut_cases g m atoms with ⟨hn, hp⟩ | ⟨A, ext, u, B, rfl, hB, hp⟩
  · rw [hp, List.filterMap_append, trak_mapTrak]
    simp [udtaKid, MoovKid.trak?]
  · rw [hp, List.filterMap_append, trak_mapTrak, List.filterMap_append, List.map_append]
    congr 1
    rw [List.filterMap_cons, List.filterMap_cons]
    simp only [MoovKid.trak?]
    rcases h with h | h
    · rw [h A ext u B rfl (udta_none_of hB)]; rfl
    · conv => lhs; rw [← List.map_id (List.filterMap MoovKid.trak? B)]
      exact List.map_congr_left fun t _ => (h t).symm

theorem All2_map_right {α β} {R : α → β → Prop} {g : α → β} : ∀ {l : List α}, (∀ x ∈ l, R x (g x)) → All2 R l (l.map g)
  | [], _ => trivial
  | x :: l, h => ⟨h x (by simp), All2_map_right fun y hy => h y (by simp [hy])⟩

/-- The end of the movie atom. -/
def Spec.File.moovEnd (f : File) (p : Nat) : Nat := f.moovPos p + f.moovBox.ser.length

theorem put_moovEnd {f : File} {atoms : List AtomData} (ht : f.MediaBehind → f.moov.Tables) (p : Nat) :
    ((f.put atoms).moovEnd p : Int) = f.moovEnd p + f.growth atoms := by
  have h2 := put_length (a := atoms) (shift_ser_length ht (f.growth atoms))
  have h1 : (f.put atoms).moovBox.ser.length = f.moovBox.headLen + (f.moov.put id atoms).ser.length := by
    rw [Box.ser_length]; exact congrArg _ h2
  have h3 : f.moovBox.ser.length = f.moovBox.headLen + f.moov.ser.length := Box.ser_length _
  have h4 : (f.put atoms).moovPos p = f.moovPos p := rfl
  unfold Spec.File.moovEnd File.growth
  rw [h1, h3, h4]
  omega

theorem drop_behind (f : File) (X : Bytes) (k : Nat) : (X ++ f.ser).drop (f.moovEnd X.length + k) = (serL id f.post).drop k := by
  have : X ++ f.ser = (X ++ f.ftypBox.ser ++ serL id f.pre ++ f.moovBox.ser) ++ serL id f.post := by simp [File.ser]
  rw [this, show f.moovEnd X.length + k = (X ++ f.ftypBox.ser ++ serL id f.pre ++ f.moovBox.ser).length + k by
    simp only [Spec.File.moovEnd, Spec.File.moovPos, List.length_append], List.drop_append]
  rw [List.drop_eq_nil_of_le (by omega), Nat.add_sub_cancel_left]; rfl

theorem front_eq (f : File) (X : Bytes) : X ++ f.ser = (X ++ f.ftypBox.ser ++ serL id f.pre) ++ (f.moovBox.ser ++ serL id f.post) := by
  simp [File.ser]

theorem front_length (f : File) (X : Bytes) : (X ++ f.ftypBox.ser ++ serL id f.pre).length = f.moovPos X.length := by
  simp only [Spec.File.moovPos, List.length_append]

theorem bytesAt_front {f f' : File} {X : Bytes} {o n : Nat} (h1 : f'.ftypBox = f.ftypBox) (h2 : f'.pre = f.pre)
    (h : o + n ≤ f.moovPos X.length) : bytesAt (X ++ f'.ser) o n = bytesAt (X ++ f.ser) o n := by
  have key : ∀ (P Q : Bytes), o + n ≤ P.length → bytesAt (P ++ Q) o n = bytesAt P o n := by
    intro P Q hP
    unfold bytesAt
    rw [List.drop_append, List.take_append_of_le_length (by rw [List.length_drop]; omega)]
  rw [front_eq f, front_eq f', h1, h2, key (X ++ f.ftypBox.ser ++ serL id f.pre) _ (by rw [front_length]; exact h),
    key (X ++ f.ftypBox.ser ++ serL id f.pre) _ (by rw [front_length]; exact h)]

theorem inMdat_bounds {f : File} {p o n : Nat} (h : f.InMdat p o n) :
    (f.MediaFront ∧ o + n ≤ f.moovPos p) ∨ (f.MediaBehind ∧ f.moovEnd p ≤ o) := by
  rcases h with ⟨A, b, B, hp, hfc, h1, h2⟩ | ⟨A, b, B, hp, hfc, h1, h2⟩
  · refine .inl ⟨⟨b, by rw [hp]; simp, hfc⟩, ?_⟩
    have : (serL id f.pre).length = (serL id A).length + (b.ser.length + (serL id B).length) := by
      rw [hp, serL_append, serL_cons, List.length_append, List.length_append]; rfl
    unfold Spec.File.moovPos
    omega
  · refine .inr ⟨⟨b, by rw [hp]; simp, hfc⟩, ?_⟩
    unfold Spec.File.moovEnd Spec.File.moovPos
    omega

/-- Offsets behind the movie atom designate the same bytes after shifting. -/
theorem bytesAt_behind {f : File} {atoms : List AtomData} {X : Bytes} {o n : Nat} (ht : f.MediaBehind → f.moov.Tables)
    (ho : f.moovEnd X.length ≤ o) (ho2 : o < 2^62) (hl : (X ++ f.ser).length < 2^62) (hl' : (X ++ (f.put atoms).ser).length < 2^62) :
    bytesAt (X ++ (f.put atoms).ser) (shiftBy (f.growth atoms) o) n = bytesAt (X ++ f.ser) o n := by
  have he := put_moovEnd (atoms := atoms) ht X.length
  have hb : (f.put atoms).moovEnd X.length < 2^62 := by
    have : (X ++ (f.put atoms).ser).length = (f.put atoms).moovEnd X.length + (serL id f.post).length := by
      rw [front_eq, List.length_append, front_length, List.length_append]
      unfold Spec.File.moovEnd
      exact (Nat.add_assoc _ _ _).symm
    omega
  have hs : shiftBy (f.growth atoms) o = (f.put atoms).moovEnd X.length + (o - f.moovEnd X.length) := by
    unfold shiftBy
    omega
  unfold bytesAt
  rw [hs, drop_behind]
  conv => rhs; rw [show o = f.moovEnd X.length + (o - f.moovEnd X.length) by omega, drop_behind]
  rfl

theorem tables_chunks_lt {t : Spec.Trak} (h : t.Tables) : ∀ o ∈ t.chunks, o < 2^62 := by
  intro o ho
  unfold Trak.chunks at ho
  cases ha : (t.filterMap Kid.sel).getLast? with
  | none => rw [ha] at ho; simp at ho
  | some a =>
    rw [ha, Option.map_some, Option.getD_some] at ho
    unfold Mdia.chunks at ho
    cases ha' : (a.filterMap Kid.sel).getLast? with
    | none => rw [ha'] at ho; simp at ho
    | some a' =>
      rw [ha', Option.map_some, Option.getD_some] at ho
      unfold Minf.chunks at ho
      cases ha'' : (a'.filterMap Kid.sel).getLast? with
      | none => rw [ha''] at ho; simp at ho
      | some s =>
        rw [ha'', Option.map_some, Option.getD_some] at ho
        have hs := h a ha a' ha' s ha''
        rcases List.mem_append.mp ho with ho | ho
        · cases hb : (s.filterMap (Box.sel (cc 's' 't' 'c' 'o'))).getLast? with
          | none => rw [hb] at ho; simp at ho
          | some body =>
            rw [hb] at ho
            obtain ⟨_, _, _, _, _, _, hlt⟩ := hs.1 _ hb
            exact hlt o ho
        · cases hb : (s.filterMap (Box.sel (cc 'c' 'o' '6' '4'))).getLast? with
          | none => rw [hb] at ho; simp at ho
          | some body =>
            rw [hb] at ho
            obtain ⟨_, _, _, _, _, _, hlt⟩ := hs.2 _ hb
            exact hlt o ho

theorem trak_mem {m : Spec.Moov} {t : Spec.Trak} (h : t ∈ m.traks) : ∃ ext, MoovKid.trak ext t ∈ m := by
  obtain ⟨k, hk, hs⟩ := List.mem_filterMap.mp h
  cases k with
  | trak ext t' => injection hs with hs; exact ⟨ext, hs ▸ hk⟩
  | udta => exact absurd hs (by simp [MoovKid.trak?])
  | raw => exact absurd hs (by simp [MoovKid.trak?])

/-! ### Crashes -/

theorem apply_take {F : Bytes} {op : Op} {p : Nat} (h : p ≤ op.lo) (hF : p ≤ F.length) :
    (op.apply F).take p = F.take p ∧ p ≤ (op.apply F).length := by
  cases op with
  | write off b =>
    have h : p ≤ off := h
    have hl : (F.take off).length = min off F.length := List.length_take
    simp only [Op.apply, writeAt]
    refine ⟨?_, by simp only [List.length_append]; omega⟩
    rw [List.append_assoc, List.append_assoc, List.take_append_of_le_length (by omega), List.take_take, Nat.min_eq_left h]
  | setLen n =>
    have h : p ≤ n := h
    have hl : (F.take n).length = min n F.length := List.length_take
    simp only [Op.apply, fileSetLen]
    refine ⟨?_, by simp only [List.length_append]; omega⟩
    rw [List.take_append_of_le_length (by omega), List.take_take, Nat.min_eq_left h]

theorem foldl_take {p : Nat} : ∀ {ops : List Op} {F : Bytes}, (∀ op ∈ ops, p ≤ op.lo) → p ≤ F.length →
    (ops.foldl Op.apply F).take p = F.take p ∧ p ≤ (ops.foldl Op.apply F).length
  | [], _, _, hF => ⟨rfl, hF⟩
  | op :: ops, F, h, hF => by
    obtain ⟨h1, h2⟩ := apply_take (h op (by simp)) hF
    obtain ⟨h3, h4⟩ := foldl_take (ops := ops) (fun o ho => h o (by simp [ho])) h2
    exact ⟨h3.trans h1, h4⟩

end Mp4
