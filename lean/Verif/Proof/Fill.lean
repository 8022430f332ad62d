import Verif.Proof.Written
import Verif.Proof.Shadow
import Verif.Proof.PutPut
import Verif.Spec.Fill
/-
Writing to a file when the content of the item list need not be that of well-formed items; compare Proof/WriteSpec and Proof/Put.
-/
namespace Mp4
open Spec

/-- Items are written as the atom `ib`, followed by `Z`. -/
structure Carry (atoms : List AtomData) (ib : Box) (Z : Bytes) : Prop where
  size : ilstSize atoms = ib.size
  emits : Emits (writeIlst atoms) (ib.ser ++ Z)

theorem writeBox_carry {fc : Fourcc} {body Z : Bytes} {m : Wr Unit} (h : Emits m (body ++ Z)) :
    Emits (do writeHead ⟨Size.ofContent body.length, fc⟩; m) ((mkBox fc body).ser ++ Z) := by
  rw [← mkBox_hd, Box.ser, List.append_assoc]
  exact (writeHead_emits _).seq h

theorem newMetaB_ser_length (ib : Box) : (newMetaB ib).ser.length = hdlrBox.ser.length + ib.ser.length + 4 := by
  simp [newMetaB, Meta.ser, serL_cons, serL_nil]

theorem writeMeta_carry {atoms : List AtomData} {ib : Box} {Z : Bytes} (h : Carry atoms ib Z) :
    (MetaW.size ⟨some metaHdlr, some atoms⟩) = (mkBox (cc 'm' 'e' 't' 'a') (newMetaB ib).ser).size ∧
    Emits (writeMeta ⟨some metaHdlr, some atoms⟩) ((mkBox (cc 'm' 'e' 't' 'a') (newMetaB ib).ser).ser ++ Z) := by
  have hs : (MetaW.size ⟨some metaHdlr, some atoms⟩) = Size.ofContent (newMetaB ib).ser.length := by
    rw [MetaW.size, newMetaB_ser_length]
    simp only [lenOrZero]
    rw [hdlrSize_eq, h.size, size_len, size_len]
  refine ⟨by rw [hs, mkBox_size], ?_⟩
  unfold writeMeta
  rw [hs]
  refine writeBox_carry ?_
  refine (Emits.seq (Emits.seq (Emits.emit _) (Emits.emit _)) (writeHdlr_emits.seq h.emits)).eq ?_
  simp [newMetaB, Meta.ser, serL_cons, serL_nil]

theorem newMetaB_tail (ib : Box) : ∃ H, (mkBox (cc 'm' 'e' 't' 'a') (newMetaB ib).ser).ser = H ++ ib.ser := by
  refine ⟨(mkBox (cc 'm' 'e' 't' 'a') (newMetaB ib).ser).head ++ ([0, 0, 0, 0] ++ hdlrBox.ser), ?_⟩
  rw [Box.ser, show (mkBox (cc 'm' 'e' 't' 'a') (newMetaB ib).ser).body = (newMetaB ib).ser from rfl]
  generalize (mkBox (cc 'm' 'e' 't' 'a') (newMetaB ib).ser).head = h
  rw [newMetaB, Meta.ser, serL_cons, serL_cons, serL_nil]
  simp

theorem newUdtaB_ser (ib : Box) : (newUdtaB ib).ser = (mkBox (cc 'm' 'e' 't' 'a') (newMetaB ib).ser).ser := by
  rw [newUdtaB, Udta.ser, serL_cons, serL_nil, List.append_nil, metaKid_box]

theorem writeUdta_carry {atoms : List AtomData} {ib : Box} {Z : Bytes} (h : Carry atoms ib Z) :
    udtaSize (some ⟨some metaHdlr, some atoms⟩) = (mkBox (cc 'u' 'd' 't' 'a') (newUdtaB ib).ser).size ∧
    Emits (writeUdta (some ⟨some metaHdlr, some atoms⟩)) ((mkBox (cc 'u' 'd' 't' 'a') (newUdtaB ib).ser).ser ++ Z) := by
  have hs : udtaSize (some ⟨some metaHdlr, some atoms⟩) = Size.ofContent (newUdtaB ib).ser.length := by
    rw [udtaSize, newUdtaB_ser]
    simp only [lenOrZero]
    rw [(writeMeta_carry h).1, size_len]
  refine ⟨by rw [hs, mkBox_size], ?_⟩
  unfold writeUdta
  rw [hs]
  refine writeBox_carry ?_
  rw [newUdtaB_ser]
  exact (writeMeta_carry h).2

theorem newUdtaB_tail (ib : Box) : ∃ H, (mkBox (cc 'u' 'd' 't' 'a') (newUdtaB ib).ser).ser = H ++ ib.ser := by
  obtain ⟨H, h⟩ := newMetaB_tail ib
  refine ⟨(mkBox (cc 'u' 'd' 't' 'a') (newUdtaB ib).ser).head ++ H, ?_⟩
  rw [Box.ser, show (mkBox (cc 'u' 'd' 't' 'a') (newUdtaB ib).ser).body = (newUdtaB ib).ser from rfl]
  generalize (mkBox (cc 'u' 'd' 't' 'a') (newUdtaB ib).ser).head = k
  rw [newUdtaB_ser, h, List.append_assoc]

theorem fillUdta_none {g} {ib : Box} {ks : Spec.Moov} (h : ∀ k ∈ ks, ¬ isUdta k) : Moov.fillUdta g ib ks = none := by
  induction ks with
  | nil => rfl
  | cons k ks ih =>
    have hk := h k (by simp)
    have hi := ih (fun x hx => h x (by simp [hx]))
    cases k with
    | udta ext u => exact absurd trivial hk
    | _ => simp only [Moov.fillUdta, hi]

theorem fillUdta_split {g} {ib : Box} {A B : List MoovKid} {ext u} (hB : ∀ x ∈ B, ¬ isUdta x) :
    Moov.fillUdta g ib (A ++ .udta ext u :: B) = some (A.map (MoovKid.mapTrak g) ++ .udta ext (u.fill ib) :: B) := by
  induction A with
  | nil => rw [List.nil_append, Moov.fillUdta, fillUdta_none hB]; rfl
  | cons a A ih => simp only [List.cons_append, Moov.fillUdta, ih, List.map_cons]

/-- The atoms inserted into an existing `meta`. -/
def fillKids (m : Meta) (ib : Box) : List Box :=
  if ∃ b ∈ m.kids, b.fc = cc 'h' 'd' 'l' 'r' then [ib] else [hdlrBox, ib]

theorem fillKids_ser (m : Meta) (ib : Box) (p : Nat) :
    serL id (fillKids m ib) = (if (lastAt id (leafAt HANDLER_REFERENCE) p m.kids).isNone then hdlrBox.ser else []) ++ ib.ser := by
  rw [lastAt_leaf_isNone, fillKids]
  by_cases h : ∃ b ∈ m.kids, b.fc = cc 'h' 'd' 'l' 'r'
  · have h' : ∃ b ∈ m.kids, b.fc = HANDLER_REFERENCE := h
    rw [if_pos h, decide_eq_true h', serL_cons, serL_nil]; simp
  · have h' : ¬ ∃ b ∈ m.kids, b.fc = HANDLER_REFERENCE := h
    rw [if_neg h, decide_eq_false h', serL_cons, serL_cons, serL_nil]; simp

theorem fillKids_tail (m : Meta) (ib : Box) : ∃ H, serL id (fillKids m ib) = H ++ ib.ser :=
  ⟨_, fillKids_ser m ib 0⟩

theorem insertLen_fill {m : Meta} {atoms : List AtomData} {ib : Box} {Z : Bytes} {p : Nat} (h : Carry atoms ib Z) :
    insertLen (lastAt id (leafAt HANDLER_REFERENCE) p m.kids) atoms = (serL id (fillKids m ib)).length := by
  rw [fillKids_ser m ib p, insertLen, h.size, size_len]
  cases (lastAt id (leafAt HANDLER_REFERENCE) p m.kids).isNone
  · simp [lenOrZero]
  · simp only [if_true, lenOrZero, hdlrSize_eq, size_len, List.length_append]

theorem insert_fill {m : Meta} {atoms : List AtomData} {ib : Box} {Z : Bytes} {p : Nat} (h : Carry atoms ib Z) {a b d u}
    (hp : plan = ⟨a, b, d, u, none, none, if (lastAt id (leafAt HANDLER_REFERENCE) p m.kids).isNone then some metaHdlr else none⟩) :
    Emits (newAtomsWr plan atoms) (serL id (fillKids m ib) ++ Z) := by
  rw [fillKids_ser m ib p, hp, List.append_assoc]
  cases (lastAt id (leafAt HANDLER_REFERENCE) p m.kids).isNone
  · exact Emits.seq Emits.pure h.emits
  · exact Emits.seq writeHdlr_emits h.emits

/-- How the bytes of the movie atom are divided, and how they are changed. -/
structure FPlace (e : Env) (q : Nat) (b : Box) (m : Spec.Moov) (atoms : List AtomData) (ib : Box) (Z : Bytes) where
  before : List MoovKid
  inner : Heads
  old : Bytes
  new : Bytes
  rest : Bytes
  plan : Plan
  sub : ∀ k ∈ before, k ∈ m
  ser : serL MoovKid.box m = serL MoovKid.box before ++ inner.old ++ old ++ rest
  put : ∀ g, serL MoovKid.box (m.fill g ib) = serL MoovKid.box (before.map (MoovKid.mapTrak g)) ++ inner.new ++ new ++ rest
  mapped : ∀ g, ∃ R, serL MoovKid.box (m.map (MoovKid.mapTrak g)) = serL MoovKid.box (before.map (MoovKid.mapTrak g)) ++ inner.old ++ R
  ok : inner.OK ((new.length : Int) - old.length)
  plans : mkPlan (moovB q b m) atoms e = .ok plan
  start : plan.newAtomsStart = q + b.headLen + (serL MoovKid.box before).length + inner.old.length
  moved : plan.movedDataStart = plan.newAtomsStart + old.length
  diff : plan.lenDiff = (new.length : Int) - old.length
  bounds : plan.updateAtoms.reverse = ⟨q, b.size⟩ :: inner.bounds (q + b.headLen + (serL MoovKid.box before).length)
  emits : Emits (newAtomsWr plan atoms) (new ++ Z)
  tail : ∃ H, new = H ++ ib.ser

theorem fill_none {g} {ib : Box} {ks : Spec.Moov} (h : ∀ k ∈ ks, ¬ isUdta k) :
    Moov.fill g ib ks = ks.map (MoovKid.mapTrak g) ++ [udtaKid (newUdtaB ib)] := by rw [Moov.fill, fillUdta_none h]; rfl

theorem fill_split {g} {ib : Box} {A B : List MoovKid} {ext u} (hB : ∀ x ∈ B, ¬ isUdta x) :
    Moov.fill g ib (A ++ .udta ext u :: B) = A.map (MoovKid.mapTrak g) ++ .udta ext (u.fill ib) :: B := by
  rw [Moov.fill, fillUdta_split hB]; rfl

/-- There is no `udta`. -/
theorem fplace_moov {e q} {b : Box} {m : Spec.Moov} {atoms : List AtomData} {ib : Box} {Z : Bytes} (hs : Carry atoms ib Z) (hb : b.body = serL MoovKid.box m)
    (h1 : q + b.ser.length < 2^62) (h2 : (serL MoovKid.box (m.fill id ib)).length < 2^62)
    (hn : ∀ k ∈ m, ¬ isUdta k) : Nonempty (FPlace e q b m atoms ib Z) := by
  obtain ⟨hw1, hw2⟩ := writeUdta_carry hs
  rw [fill_none hn, serL_append, serL_cons, serL_nil, udtaKid_box] at h2
  simp only [List.length_append, List.length_nil] at h2
  rw [Box.ser_length, hb] at h1
  have hu : (moovB q b m).udta = none := lastAt_none (fun k hk q => udtaAt_none (hn k hk) q) _
  have hpl := mkPlan_moov (e := e) (atoms := atoms) (mb := moovB q b m) (q := q) (sz := b.size) rfl hu
    (by rw [size_len, Box.ser_length, hb]; omega) (by rw [hw1, size_len]; omega)
  refine ⟨{ before := m, inner := [], old := [], new := (mkBox (cc 'u' 'd' 't' 'a') (newUdtaB ib).ser).ser, rest := [],
            plan := _, sub := fun _ h => h, ser := ?_, put := fun g => ?_, mapped := fun g => ⟨[], ?_⟩, ok := ?_, plans := hpl, start := ?_,
            moved := ?_, diff := ?_, bounds := ?_, emits := ?_, tail := newUdtaB_tail ib }⟩
  · simp [Heads.old]
  · rw [fill_none hn, serL_append, serL_cons, serL_nil, udtaKid_box]; simp [Heads.new]
  · simp [Heads.old]
  · intro h hh; exact absurd hh (by simp)
  · show q + b.size.len = _
    rw [size_len, Box.ser_length, hb]
    simp only [Heads.old, List.flatMap_nil, List.length_nil]
    omega
  · rfl
  · show ((udtaSize _).len : Int) = _
    rw [hw1, size_len]; simp
  · rfl
  · exact hw2

theorem udtaFill_none {ib : Box} {u : Udta} (h : ∀ k ∈ u, ¬ isMeta k) : u.fill ib = u ++ [metaKid (newMetaB ib)] := by
  rw [Udta.fill, updLast_none]
  · rfl
  · intro k hk
    cases k with
    | node ext m => exact absurd trivial (h _ hk)
    | raw b => rfl

theorem udtaFill_split {ib : Box} {A B : List (Kid Meta)} {ext mt} (hB : ∀ x ∈ B, ¬ isMeta x) :
    Udta.fill ib (A ++ .node ext mt :: B) = A ++ .node ext (mt.fill ib) :: B := by
  rw [Udta.fill, updLast_split (ys := [.node ext (mt.fill ib)]) rfl]
  · simp
  · intro k hk
    cases k with
    | node ext m => exact absurd trivial (hB _ hk)
    | raw b => rfl

theorem metaFill_none {ib : Box} {m : Meta} (h : ∀ k ∈ m.kids, ¬ k.fc = cc 'i' 'l' 's' 't') :
    m.fill ib = ⟨m.flags, m.kids ++ fillKids m ib⟩ := by
  rw [Meta.fill, updLast_none (fun k hk => if_neg (h k hk))]; rfl

theorem metaFill_split {ib : Box} {m : Meta} {A B : List Box} {k : Box} (hm : m.kids = A ++ k :: B) (hk : k.fc = cc 'i' 'l' 's' 't')
    (hB : ∀ x ∈ B, ¬ x.fc = cc 'i' 'l' 's' 't') : m.fill ib = ⟨m.flags, A ++ fillKids m ib ++ B⟩ := by
  rw [Meta.fill]
  rw [show updLast _ m.kids = some (A ++ fillKids m ib ++ B) by
    rw [hm]; exact updLast_split (by rw [if_pos hk, ← hm]; rfl) (fun x hx => if_neg (hB x hx))]
  rfl

/-- The last `udta` has no `meta`. -/
theorem fplace_udta {e q} {b : Box} {atoms : List AtomData} {A B : List MoovKid} {ext : Bool} {u : Udta}
    {ib : Box} {Z : Bytes} (hs : Carry atoms ib Z) (hb : b.body = serL MoovKid.box (A ++ .udta ext u :: B))
    (h1 : q + b.ser.length < 2^62) (h2 : (serL MoovKid.box (Moov.fill id ib (A ++ .udta ext u :: B))).length < 2^62)
    (hB : ∀ k ∈ B, ¬ isUdta k) (hn : ∀ k ∈ u, ¬ isMeta k) : Nonempty (FPlace e q b (A ++ .udta ext u :: B) atoms ib Z) := by
  obtain ⟨hw1, hw2⟩ := writeMeta_carry hs
  have hbu : (MoovKid.udta ext u).box = ⟨ext, cc 'u' 'd' 't' 'a', u.ser⟩ := rfl
  have hbu' : (MoovKid.udta ext (u.fill ib)).box = ⟨ext, cc 'u' 'd' 't' 'a', (u.fill ib).ser⟩ := rfl
  have hus : (u.fill ib).ser = u.ser ++ (mkBox (cc 'm' 'e' 't' 'a') (newMetaB ib).ser).ser := by
    rw [udtaFill_none hn, Udta.ser, serL_append, serL_cons, serL_nil, metaKid_box]; simp [Udta.ser]
  rw [fill_split hB, serL_append, serL_cons, hbu', Box.ser, hus] at h2
  simp only [List.length_append, Box.head_length] at h2
  have h1' := h1
  rw [Box.ser_length, hb, serL_append, serL_cons, hbu, Box.ser] at h1'
  simp only [List.length_append, Box.head_length] at h1'
  have hu : (moovB q b (A ++ .udta ext u :: B)).udta
      = some ⟨⟨q + b.headLen + (serL MoovKid.box A).length, (⟨ext, cc 'u' 'd' 't' 'a', u.ser⟩ : Box).size⟩, none⟩ := by
    refine lastAt_split (f := udtaAt) ?_ (fun k hk q => udtaAt_none (hB k hk) q)
    rw [udtaAt, udtaB, lastAt_none (fun k hk q => metaAt_none (hn k hk) q)]; rfl
  have hpl := mkPlan_udta (e := e) (atoms := atoms) hu
    (by rw [size_len, Box.ser_length]; simp only []; omega) (by rw [hw1, size_len]; omega)
  refine ⟨{ before := A, inner := [(⟨ext, cc 'u' 'd' 't' 'a', u.ser⟩, ⟨ext, cc 'u' 'd' 't' 'a', (u.fill ib).ser⟩, u.ser)],
            old := [], new := (mkBox (cc 'm' 'e' 't' 'a') (newMetaB ib).ser).ser, rest := serL MoovKid.box B,
            plan := _, sub := fun _ h => by simp [h], ser := ?_, put := fun g => ?_, mapped := fun g => ⟨serL MoovKid.box (B.map (MoovKid.mapTrak g)), ?_⟩, ok := ?_, plans := hpl, start := ?_,
            moved := ?_, diff := ?_, bounds := ?_, emits := ?_, tail := newMetaB_tail ib }⟩
  · simp [Heads.old, serL_append, serL_cons, hbu, Box.ser]
  · rw [fill_split hB]
    simp [Heads.new, serL_append, serL_cons, hbu', Box.ser, hus]
  · simp [Heads.old, serL_append, serL_cons, hbu, Box.ser, mapTrak_udta]
  · intro h hh
    rw [List.mem_singleton] at hh
    subst hh
    refine ⟨rfl, rfl, ?_, ?_, ?_⟩
    · simp only [hus, List.length_append, List.length_nil]; omega
    · simp only []; omega
    · simp only [hus, List.length_append]; omega
  · simp only [Heads.old, List.flatMap_cons, List.flatMap_nil, List.append_nil]
    rw [size_len, Box.ser]
  · rfl
  · show ((MetaW.size _).len : Int) = _
    rw [hw1, size_len]; simp
  · rfl
  · exact hw2

/-- The last `udta` has a `meta`. -/
theorem fplace_meta {e q} {b : Box} {atoms : List AtomData} {A B : List MoovKid} {ext : Bool} {A' B' : List (Kid Meta)} {ext' : Bool} {mt : Meta}
    {ib : Box} {Z : Bytes} (hs : Carry atoms ib Z) (hb : b.body = serL MoovKid.box (A ++ .udta ext (A' ++ .node ext' mt :: B') :: B))
    (h1 : q + b.ser.length < 2^62) (h2 : (serL MoovKid.box (Moov.fill id ib (A ++ .udta ext (A' ++ .node ext' mt :: B') :: B))).length < 2^62)
    (hB : ∀ k ∈ B, ¬ isUdta k) (hB' : ∀ k ∈ B', ¬ isMeta k) (hf : mt.flags.length = 3) :
    Nonempty (FPlace e q b (A ++ .udta ext (A' ++ .node ext' mt :: B') :: B) atoms ib Z) := by
  generalize hbu0 : (⟨ext, cc 'u' 'd' 't' 'a', Udta.ser (A' ++ .node ext' mt :: B')⟩ : Box) = bu
  generalize hbu0' : (⟨ext, cc 'u' 'd' 't' 'a', Udta.ser (A' ++ .node ext' (mt.fill ib) :: B')⟩ : Box) = bu'
  generalize hbm0 : (⟨ext', cc 'm' 'e' 't' 'a', mt.ser⟩ : Box) = bm
  generalize hbm0' : (⟨ext', cc 'm' 'e' 't' 'a', (mt.fill ib).ser⟩ : Box) = bm'
  have hbu : (MoovKid.udta ext (A' ++ .node ext' mt :: B')).box = bu := by rw [← hbu0]; rfl
  have hbu' : (MoovKid.udta ext (A' ++ .node ext' (mt.fill ib) :: B')).box = bu' := by rw [← hbu0']; rfl
  have hbm : (Kid.node ext' mt).box (cc 'm' 'e' 't' 'a') Meta.ser = bm := by rw [← hbm0]; rfl
  have hbm' : (Kid.node ext' (mt.fill ib)).box (cc 'm' 'e' 't' 'a') Meta.ser = bm' := by rw [← hbm0']; rfl
  have hub : bu.body = serL (Kid.box (cc 'm' 'e' 't' 'a') Meta.ser) A' ++ bm.ser ++ serL (Kid.box (cc 'm' 'e' 't' 'a') Meta.ser) B' := by
    rw [← hbu0]; simp only [Udta.ser, serL_append, serL_cons, hbm, List.append_assoc]
  have hub' : bu'.body = serL (Kid.box (cc 'm' 'e' 't' 'a') Meta.ser) A' ++ bm'.ser ++ serL (Kid.box (cc 'm' 'e' 't' 'a') Meta.ser) B' := by
    rw [← hbu0']; simp only [Udta.ser, serL_append, serL_cons, hbm', List.append_assoc]
  have hputs : ∀ g, serL MoovKid.box (Moov.fill g ib (A ++ .udta ext (A' ++ .node ext' mt :: B') :: B))
      = serL MoovKid.box (A.map (MoovKid.mapTrak g)) ++ bu'.ser ++ serL MoovKid.box B := by
    intro g
    rw [fill_split hB, udtaFill_split hB', serL_append, serL_cons, hbu', List.append_assoc]
  have hsers : serL MoovKid.box (A ++ .udta ext (A' ++ .node ext' mt :: B') :: B) = serL MoovKid.box A ++ bu.ser ++ serL MoovKid.box B := by
    rw [serL_append, serL_cons, hbu, List.append_assoc]
  have hmaps : ∀ g, serL MoovKid.box ((A ++ .udta ext (A' ++ .node ext' mt :: B') :: B).map (MoovKid.mapTrak g))
      = serL MoovKid.box (A.map (MoovKid.mapTrak g)) ++ bu.ser ++ serL MoovKid.box (B.map (MoovKid.mapTrak g)) := by
    intro g
    rw [List.map_append, List.map_cons, mapTrak_udta, serL_append, serL_cons, hbu, List.append_assoc]
  have hext : bu'.ext = bu.ext ∧ bu'.fc = bu.fc ∧ bm'.ext = bm.ext ∧ bm'.fc = bm.fc := by
    rw [← hbu0, ← hbu0', ← hbm0, ← hbm0']; exact ⟨rfl, rfl, rfl, rfl⟩
  have hmb : bm.body = mt.ser := by rw [← hbm0]
  have hmb' : bm'.body = (mt.fill ib).ser := by rw [← hbm0']
  rw [hputs] at h2
  have h1' := h1
  rw [Box.ser_length, hb, hsers] at h1'
  simp only [List.length_append, Box.ser_length] at h1' h2
  have hu : (moovB q b (A ++ .udta ext (A' ++ .node ext' mt :: B') :: B)).udta
      = some ⟨⟨q + b.headLen + (serL MoovKid.box A).length, bu.size⟩,
          some (metaB (q + b.headLen + (serL MoovKid.box A).length + bu.headLen + (serL (Kid.box (cc 'm' 'e' 't' 'a') Meta.ser) A').length) bm mt)⟩ := by
    refine lastAt_split (f := udtaAt) ?_ (fun k hk q => udtaAt_none (hB k hk) q)
    rw [udtaAt, udtaB, hbu, lastAt_split (b := metaB (q + b.headLen + (serL MoovKid.box A).length + bu.headLen + (serL (Kid.box (cc 'm' 'e' 't' 'a') Meta.ser) A').length) bm mt)
      (by rw [← hbm]; rfl) (fun k hk q => metaAt_none (hB' k hk) q)]
  generalize hsA : serL MoovKid.box A = sA at *
  generalize hsB : serL MoovKid.box B = sB at *
  generalize hsA' : serL (Kid.box (cc 'm' 'e' 't' 'a') Meta.ser) A' = sA' at *
  generalize hsB' : serL (Kid.box (cc 'm' 'e' 't' 'a') Meta.ser) B' = sB' at *
  have hmh : bm'.headLen = bm.headLen := by unfold Box.headLen; rw [hext.2.2.1]
  have huh : bu'.headLen = bu.headLen := by unfold Box.headLen; rw [hext.1]
  have hul : bu.body.length = sA'.length + (bm.headLen + bm.body.length) + sB'.length := by
    rw [hub]; simp only [List.length_append, Box.ser_length]
  have hul' : bu'.body.length = sA'.length + (bm.headLen + bm'.body.length) + sB'.length := by
    rw [hub']; simp only [List.length_append, Box.ser_length, hmh]
  rcases last_split (fun b : Box => b.fc = cc 'i' 'l' 's' 't') mt.kids with hk | ⟨A2, il, B2, hk, hil, hB2⟩
  · have hpm := metaFill_none (ib := ib) hk
    have hml : bm.body.length = 4 + (serL id mt.kids).length := by
      rw [hmb, Meta.ser]; simp [hf]; omega
    have hml' : bm'.body.length = 4 + (serL id mt.kids).length + (serL id (fillKids mt ib)).length := by
      rw [hmb', hpm, Meta.ser, serL_append]; simp [hf]; omega
    have hmB : metaB (q + b.headLen + sA.length + bu.headLen + sA'.length) bm mt
        = ⟨⟨q + b.headLen + sA.length + bu.headLen + sA'.length, bm.size⟩,
           lastAt id (leafAt HANDLER_REFERENCE) (q + b.headLen + sA.length + bu.headLen + sA'.length + bm.headLen + 4) mt.kids, none⟩ := by
      rw [metaB, lastAt_none (f := leafAt ITEM_LIST) (fun k hk' q => if_neg (hk k hk'))]
    rw [hmB] at hu
    have hpl := mkPlan_meta (e := e) (atoms := atoms) hu
      (by rw [size_len, Box.ser_length]; omega) (by rw [insertLen_fill hs]; omega)
    refine ⟨{ before := A, inner := [(bu, bu', sA'), (bm, bm', mt.ser)],
              old := [], new := serL id (fillKids mt ib), rest := sB' ++ sB,
              plan := _, sub := fun _ h => by simp [h], ser := ?_, put := fun g => ?_, mapped := fun g => ⟨sB' ++ serL MoovKid.box (B.map (MoovKid.mapTrak g)), ?_⟩, ok := ?_, plans := hpl, start := ?_,
              moved := ?_, diff := ?_, bounds := ?_, emits := ?_, tail := fillKids_tail mt ib }⟩
    · rw [hsers, hsA, Box.ser, hub, Box.ser, hmb]; simp [Heads.old]
    · rw [hputs, Box.ser, hub', Box.ser, hmb', hpm]
      simp [Heads.new, Meta.ser, serL_append]
    · rw [hmaps, Box.ser, hub, Box.ser, hmb]; simp [Heads.old]
    · intro h hh
      simp only [List.mem_cons, List.not_mem_nil, or_false] at hh
      rcases hh with rfl | rfl
      · refine ⟨hext.1, hext.2.1, ?_, ?_, ?_⟩ <;> simp only [List.length_nil] <;> omega
      · refine ⟨hext.2.2.1, hext.2.2.2, ?_, ?_, ?_⟩ <;> simp only [List.length_nil] <;> omega
    · simp only [Heads.old, List.flatMap_cons, List.flatMap_nil, List.append_nil, List.length_append, Box.head_length, ← hmb, hsA]
      rw [size_len, Box.ser_length]; omega
    · rfl
    · show (insertLen _ _ : Int) = _
      rw [insertLen_fill hs]; simp
    · simp only [hsA, Heads.bounds]; rfl
    · exact insert_fill (p := q + b.headLen + sA.length + bu.headLen + sA'.length + bm.headLen + 4) hs rfl
  · have hpm := metaFill_split (ib := ib) hk hil hB2
    have hml : bm.body.length = 4 + (serL id A2).length + (il.headLen + il.body.length) + (serL id B2).length := by
      rw [hmb, Meta.ser, hk, serL_append, serL_cons]
      simp only [List.cons_append, List.length_cons, List.length_append, hf, id, Box.ser_length]; omega
    have hml' : bm'.body.length = 4 + (serL id A2).length + (serL id (fillKids mt ib)).length + (serL id B2).length := by
      rw [hmb', hpm, Meta.ser, serL_append, serL_append]
      simp only [List.cons_append, List.length_cons, List.length_append, hf]; omega
    have hmB : metaB (q + b.headLen + sA.length + bu.headLen + sA'.length) bm mt
        = ⟨⟨q + b.headLen + sA.length + bu.headLen + sA'.length, bm.size⟩,
           lastAt id (leafAt HANDLER_REFERENCE) (q + b.headLen + sA.length + bu.headLen + sA'.length + bm.headLen + 4) mt.kids,
           some ⟨q + b.headLen + sA.length + bu.headLen + sA'.length + bm.headLen + 4 + (serL id A2).length, il.size⟩⟩ := by
      rw [metaB]
      congr 1
      rw [hk]
      exact lastAt_split (f := leafAt ITEM_LIST) (if_pos hil) (fun x hx q => if_neg (hB2 x hx))
    rw [hmB] at hu
    have hpl := mkPlan_ilst (e := e) (atoms := atoms) hu
      (by rw [size_len, Box.ser_length]; omega) (by rw [insertLen_fill hs]; omega)
    refine ⟨{ before := A, inner := [(bu, bu', sA'), (bm, bm', (0 :: mt.flags) ++ serL id A2)],
              old := il.ser, new := serL id (fillKids mt ib), rest := serL id B2 ++ sB' ++ sB,
              plan := _, sub := fun _ h => by simp [h], ser := ?_, put := fun g => ?_, mapped := fun g => ⟨il.ser ++ serL id B2 ++ sB' ++ serL MoovKid.box (B.map (MoovKid.mapTrak g)), ?_⟩, ok := ?_, plans := hpl, start := ?_,
              moved := ?_, diff := ?_, bounds := ?_, emits := ?_, tail := fillKids_tail mt ib }⟩
    · rw [hsers, hsA, show bu.ser = bu.head ++ bu.body from rfl, hub, show bm.ser = bm.head ++ bm.body from rfl, hmb, Meta.ser, hk]; simp [Heads.old, serL_append, serL_cons]
    · rw [hputs, Box.ser, hub', show bm'.ser = bm'.head ++ bm'.body from rfl, hmb', hpm]
      simp [Heads.new, Meta.ser, serL_append]
    · rw [hmaps, show bu.ser = bu.head ++ bu.body from rfl, hub, show bm.ser = bm.head ++ bm.body from rfl, hmb, Meta.ser, hk]; simp [Heads.old, serL_append, serL_cons]
    · intro h hh
      simp only [List.mem_cons, List.not_mem_nil, or_false] at hh
      rcases hh with rfl | rfl
      · refine ⟨hext.1, hext.2.1, ?_, ?_, ?_⟩ <;> simp only [Box.ser_length] <;> omega
      · refine ⟨hext.2.2.1, hext.2.2.2, ?_, ?_, ?_⟩ <;> simp only [Box.ser_length] <;> omega
    · simp only [Heads.old, List.flatMap_cons, List.flatMap_nil, List.append_nil, List.length_append, Box.head_length, hsA,
        List.cons_append, List.length_cons, hf]
      omega
    · show _ + il.size.len = _ + _
      rw [size_len]
    · show (insertLen _ _ : Int) - il.size.len = _
      rw [insertLen_fill hs, size_len]
    · simp only [hsA, Heads.bounds]; rfl
    · exact insert_fill (p := q + b.headLen + sA.length + bu.headLen + sA'.length + bm.headLen + 4) hs rfl

theorem exists_fplace {e q} {b : Box} {m : Spec.Moov} {atoms : List AtomData} {ib : Box} {Z : Bytes} (hs : Carry atoms ib Z) (hb : b.body = serL MoovKid.box m)
    (h1 : q + b.ser.length < 2^62) (h2 : (serL MoovKid.box (m.fill id ib)).length < 2^62) (hw : m.WF) : Nonempty (FPlace e q b m atoms ib Z) := by
  rcases last_split isUdta m with h | ⟨A, k, B, rfl, hk, hB⟩
  · exact fplace_moov hs hb h1 h2 h
  · cases k with
    | udta ext u =>
      rcases last_split isMeta u with h | ⟨A', k, B', rfl, hk, hB'⟩
      · exact fplace_udta hs hb h1 h2 hB h
      · cases k with
        | node ext' mt =>
          refine fplace_meta hs hb h1 h2 hB hB' ?_
          have h := (hw (.udta ext (A' ++ .node ext' mt :: B')) (by simp)).2
          exact (h (.node ext' mt) (by simp)).2.1
        | raw b => exact absurd hk id
    | _ => exact absurd hk id

/-- Writing to a file of which the search finds the movie atom, whatever the bytes `T` behind the movie atom are: the items are placed in the
tree of atoms; `Z`, which is not part of it, remains as far as it is not overwritten by what is behind the item list. -/
theorem writeTagTo_fill {e : Env} {f : File} {X T F Z : Bytes} {atoms : List AtomData} {ib : Box} {c : Nat} (hs : Carry atoms ib Z)
    (hFdef : F = X ++ f.ftypBox.ser ++ serL id f.pre ++ f.moovBox.ser ++ T) (hF : Fit e F) (hw : f.moov.WF)
    (hfind : findTop e F X.length = .ok ((f.mdatPos X.length, moovB (f.moovPos X.length) f.moovBox f.moov), c)) (ho : F.length < 2^62)
    (hn : (X ++ f.ftypBox.ser ++ serL id f.pre ++ (f.fill ib).moovBox.ser ++ T).length < 2^62)
    (hmax : (X ++ f.ftypBox.ser ++ serL id f.pre ++ (f.fill ib).moovBox.ser ++ T).length ≤ e.maxPos)
    (ht : f.MediaBehind → f.moov.Tables) :
    ∃ s A B, writeTagTo e F X.length atoms = (.ok (), s) ∧ (f.fill ib).moovBox.ser = A ++ ib.ser ++ B ∧
      s.file = X ++ f.ftypBox.ser ++ serL id f.pre ++ (f.fill ib).moovBox.ser ++ T ++ Z.drop (B ++ T).length ∧
      s.buf = [] ∧ (∀ op ∈ s.trace, f.moovPos X.length ≤ op.lo) ∧ s.trace.foldl Op.apply F = s.file := by
  generalize hg : (if f.MediaBehind then Spec.Trak.shift (f.growthB ib) else id) = g
  have hput : (f.fill ib).moovBox = ⟨f.moovExt, cc 'm' 'o' 'o' 'v', serL MoovKid.box (f.moov.fill g ib)⟩ := by
    rw [← hg]; rfl
  have hgl : ∀ ks : List MoovKid, (∀ k ∈ ks, k ∈ f.moov) →
      (serL MoovKid.box (ks.map (MoovKid.mapTrak g))).length = (serL MoovKid.box ks).length := by
    intro ks hks
    rw [← hg]
    split
    · rename_i h
      exact shift_length ks (fun ext t hk => ht h ext t (hks _ hk))
    · rw [mapTrak_id]
  have hgput : (serL MoovKid.box (f.moov.fill g ib)).length = (serL MoovKid.box (f.moov.fill id ib)).length := by
    rcases last_split isUdta f.moov with h | ⟨A, k, B, hm, hk, hB⟩
    · rw [fill_none h, fill_none h, serL_append, serL_append, List.length_append, List.length_append, mapTrak_id, hgl _ (fun _ h => h)]
    · cases k with
      | udta ext u =>
        rw [hm, fill_split hB, fill_split hB, serL_append, serL_append, List.length_append, List.length_append, mapTrak_id,
          hgl A (fun k hk => by rw [hm]; simp [hk])]
      | _ => exact absurd hk id
  have hmser : f.moovBox.body = serL MoovKid.box f.moov := rfl
  generalize hP : X ++ f.ftypBox.ser ++ serL id f.pre = P
  have hPl : f.moovPos X.length = P.length := by rw [← hP]; simp only [List.length_append]; rfl
  have hFser : F = P ++ f.moovBox.ser ++ T := by
    rw [← hP]; exact hFdef
  rw [hP] at hn hmax
  generalize hN : P ++ (f.fill ib).moovBox.ser ++ T = N at hn hmax ⊢
  have hNser : N = P ++ (⟨f.moovExt, cc 'm' 'o' 'o' 'v', serL MoovKid.box (f.moov.fill g ib)⟩ : Box).ser ++ T := by
    rw [← hN, hput]
  have ho' := ho
  have hn' := hn
  rw [hFser] at ho'
  rw [hNser] at hn'
  simp only [List.length_append, Box.ser_length] at ho' hn'
  obtain ⟨pl⟩ := exists_fplace (e := e) (q := f.moovPos X.length) (b := f.moovBox) (m := f.moov) hs hmser
    (by rw [hPl, Box.ser_length]; omega) (by omega) hw
  have hsl : (serL MoovKid.box f.moov).length = (serL MoovKid.box pl.before).length + pl.inner.old.length + pl.old.length + pl.rest.length := by
    rw [pl.ser]; simp only [List.length_append]
  have hil := Heads.length pl.ok
  have hpl' : (serL MoovKid.box (f.moov.fill g ib)).length = (serL MoovKid.box pl.before).length + pl.inner.old.length + pl.new.length + pl.rest.length := by
    rw [pl.put g]; simp only [List.length_append]; rw [hgl _ pl.sub, hil]
  have hgrow : f.growthB ib = (pl.new.length : Int) - pl.old.length := by
    have h1 : (f.moov.fill id ib).ser.length = (serL MoovKid.box (f.moov.fill g ib)).length := hgput.symm
    have h2 : f.moov.ser.length = (serL MoovKid.box f.moov).length := rfl
    rw [File.growthB, h1, h2]; omega
  have hmh : (⟨f.moovExt, cc 'm' 'o' 'o' 'v', serL MoovKid.box (f.moov.fill g ib)⟩ : Box).headLen = f.moovBox.headLen := rfl
  rw [hmh] at hn'
  rw [hmser] at ho'
  obtain ⟨R, hR⟩ := pl.mapped g
  have hRl : R.length = pl.old.length + pl.rest.length := by
    have := congrArg List.length hR
    rw [hgl _ (fun _ h => h), hsl, List.length_append, List.length_append, hgl _ pl.sub] at this
    omega
  obtain ⟨H, hH⟩ := pl.tail
  have hplan := pl.plans
  have hemit := pl.emits
  have hst : pl.plan.newAtomsStart = _ := pl.start
  have hmv : pl.plan.movedDataStart = pl.plan.newAtomsStart + pl.old.length := pl.moved
  have hdf : pl.plan.lenDiff = _ := pl.diff
  have hbd : pl.plan.updateAtoms.reverse = _ := pl.bounds
  generalize hpl2 : pl.plan = plan at *
  obtain ⟨c0, hprep⟩ := preparePhase_of (atoms := atoms) hF hfind hplan
    (by rw [hFser]; simp only [List.length_append, Box.ser_length, hmser]; omega)
  have hdrop : F.drop plan.movedDataStart = pl.rest ++ T := by
    rw [hFser, Box.ser, hmser, pl.ser]
    have : P ++ (f.moovBox.head ++ (serL MoovKid.box pl.before ++ pl.inner.old ++ pl.old ++ pl.rest)) ++ T
        = (P ++ f.moovBox.head ++ serL MoovKid.box pl.before ++ pl.inner.old ++ pl.old) ++ (pl.rest ++ T) := by
      simp only [List.append_assoc]
    rw [this]
    apply List.drop_left'
    simp only [List.length_append, Box.head_length]
    omega
  rw [hdrop] at hprep
  -- the tables
  have htab : ∃ s1 c1, (if f.mdatPos X.length > (moovB (f.moovPos X.length) f.moovBox f.moov).bounds.pos
        then wAll (patchStbl plan.lenDiff) (stblAtoms (moovB (f.moovPos X.length) f.moovBox f.moov)) else pure () : W Unit) e
        { file := F, cur := e.rcur 0 } = (.ok (), s1) ∧
      Sees F (f.moovPos X.length) s1 (P ++ f.moovBox.head ++ serL MoovKid.box (f.moov.map (MoovKid.mapTrak g)) ++ T) c1 := by
    have h0 : Sees F (f.moovPos X.length) { file := F, cur := e.rcur 0 }
        (P ++ f.moovBox.head ++ serL MoovKid.box f.moov ++ T) (e.rcur 0) := by
      refine ⟨?_, rfl, ?_, rfl⟩
      · rw [← show F = P ++ f.moovBox.head ++ serL MoovKid.box f.moov ++ T by
          rw [hFser, Box.ser, hmser]; simp only [List.append_assoc]]
        rfl
      · intro op hop; exact absurd hop (by simp [WSt.flushBuf, WSt.sysWrite])
    by_cases hmb : f.MediaBehind
    · have hgt : f.mdatPos X.length > (moovB (f.moovPos X.length) f.moovBox f.moov).bounds.pos := (mdatPos_gt f X.length).mpr hmb
      rw [if_pos hmb] at hg
      rw [if_pos hgt, stblAtoms_eq, hdf, ← hgrow, ← hg]
      have hmp := moov_patch (e := e) (F0 := F) (m := f.moovPos X.length) (d := f.growthB ib)
        (by rw [hgrow]; omega) f.moov (f.moovPos X.length + f.moovBox.headLen) (by omega) (ht hmb)
      obtain ⟨s1, c1, g1, k1, _⟩ := hmp.2 _ (P ++ f.moovBox.head) (T) (e.rcur 0)
        (by rw [hPl, List.length_append, Box.head_length])
        (by simp only [List.length_append, Box.head_length]; omega)
        (by have := hF.pos; rw [hFser] at this; simp only [List.length_append, Box.head_length, Box.ser_length, hmser] at this ⊢; omega)
        rfl h0
      exact ⟨s1, c1, g1, k1⟩
    · have hgt : ¬ f.mdatPos X.length > (moovB (f.moovPos X.length) f.moovBox f.moov).bounds.pos := fun h => hmb ((mdatPos_gt f X.length).mp h)
      rw [if_neg hmb] at hg
      rw [if_neg hgt, ← hg, mapTrak_id]
      exact ⟨_, _, rfl, h0⟩
  obtain ⟨s1, c1, g1, k1⟩ := htab
  -- the remaining writing
  generalize hnb : (⟨f.moovExt, cc 'm' 'o' 'o' 'v', serL MoovKid.box (f.moov.fill g ib)⟩ : Box) = nb at *
  have hnbb : nb.body = serL MoovKid.box (f.moov.fill g ib) := by rw [← hnb]
  have hnbl : nb.body.length = (serL MoovKid.box (f.moov.fill g ib)).length := by rw [← hnb]
  have hold : Heads.old ((f.moovBox, nb, serL MoovKid.box (pl.before.map (MoovKid.mapTrak g))) :: pl.inner)
      = f.moovBox.head ++ serL MoovKid.box (pl.before.map (MoovKid.mapTrak g)) ++ pl.inner.old := by
    unfold Heads.old; rw [List.flatMap_cons]
  have hnew : Heads.new ((f.moovBox, nb, serL MoovKid.box (pl.before.map (MoovKid.mapTrak g))) :: pl.inner)
      = nb.head ++ serL MoovKid.box (pl.before.map (MoovKid.mapTrak g)) ++ pl.inner.new := by
    unfold Heads.new; rw [List.flatMap_cons]
  have hoktop : Heads.OK plan.lenDiff ((f.moovBox, nb, serL MoovKid.box (pl.before.map (MoovKid.mapTrak g))) :: pl.inner) := by
    intro h hh
    rcases List.mem_cons.mp hh with rfl | hh
    · refine ⟨?_, ?_, ?_, ?_, ?_⟩
      · rw [← hnb]; rfl
      · rw [← hnb]; rfl
      · simp only [hnbl, hmser]; omega
      · simp only [hmser]; omega
      · simp only [hnbl]; omega
    · rw [hdf]; exact pl.ok h hh
  have hbl := hgl _ pl.sub
  obtain ⟨s2, g2, b2, k2⟩ := writePhase_over (e := e) (F0 := F) (m := f.moovPos X.length) (atoms := atoms)
    (oldLen := F.length) (plan := plan) P
    ((f.moovBox, nb, serL MoovKid.box (pl.before.map (MoovKid.mapTrak g))) :: pl.inner) (R ++ T) pl.new Z (pl.rest ++ T)
    g1 (by
      rw [hold]
      rw [hR] at k1
      simpa only [List.append_assoc] using k1)
    (by simp) hoktop (by omega)
    (by rw [← hPl, hbd, Heads.bounds, hbl])
    hemit
    (by rw [hold]; simp only [List.length_append, Box.head_length]; omega)
    (by rw [hold]; simp only [List.length_append, Box.head_length]; omega)
    (by rw [hold, hFser]; simp only [List.length_append, Box.head_length, Box.ser_length, hmser]; omega)
    (by rw [hNser] at hmax; rw [hold]; simp only [List.length_append, Box.head_length, Box.ser_length] at hmax ⊢; omega)
    (by rw [hold]; simp only [List.length_append, Box.head_length]; omega)
    ho (by omega)
  have hfin : P ++ Heads.new ((f.moovBox, nb, serL MoovKid.box (pl.before.map (MoovKid.mapTrak g))) :: pl.inner) ++ pl.new ++ (pl.rest ++ T)
      = N := by
    rw [hnew, hNser, Box.ser, hnbb, pl.put g]
    simp only [List.append_assoc]
  refine ⟨s2.flushBuf, Heads.new ((f.moovBox, nb, serL MoovKid.box (pl.before.map (MoovKid.mapTrak g))) :: pl.inner) ++ H, pl.rest,
    ?_, ?_, ?_, ?_, k2.low, ?_⟩
  · rw [writeTagTo, hprep]
    simp only []
    rw [g2]
  · rw [hput, hnew, Box.ser, hnbb, pl.put g, hH]; simp only [List.append_assoc]
  · rw [k2.file, hfin]
  · rfl
  · exact k2.flush_replay


/-! ### The content -/

theorem newMetaB_content {ib : Box} {items} (hc : ib.fc = cc 'i' 'l' 's' 't') (h : IlstBody ib.body items) : MetaItems (newMetaB ib) (some items) := by
  refine LastOf_snoc (sel := Box.sel (cc 'i' 'l' 's' 't')) (ks := [hdlrBox]) (k := ib) (by rw [Box.sel, if_pos hc]) h ?_
  intro k hk b hb
  rw [List.mem_singleton] at hk
  subst hk
  rw [Box.sel, if_neg (by decide)] at hb
  exact absurd hb (by simp)

theorem newUdtaB_content {ib : Box} {items} (hc : ib.fc = cc 'i' 'l' 's' 't') (h : IlstBody ib.body items) : UdtaItems (newUdtaB ib) (some items) :=
  ⟨some (some items), LastOf_snoc (sel := Kid.sel) (ks := []) (k := metaKid (newMetaB ib)) rfl (newMetaB_content hc h) (by simp), rfl⟩

theorem fillKids_split (m : Meta) (ib : Box) :
    ∃ C, fillKids m ib = C ++ [ib] ∧ (C = [] ∧ (∃ b ∈ m.kids, b.fc = cc 'h' 'd' 'l' 'r') ∨
      C = [hdlrBox] ∧ ¬ ∃ b ∈ m.kids, b.fc = cc 'h' 'd' 'l' 'r') := by
  by_cases h : ∃ b ∈ m.kids, b.fc = cc 'h' 'd' 'l' 'r'
  · exact ⟨[], by rw [fillKids, if_pos h]; rfl, .inl ⟨rfl, h⟩⟩
  · exact ⟨[hdlrBox], by rw [fillKids, if_neg h]; rfl, .inr ⟨rfl, h⟩⟩

theorem metaFill_cases (m : Meta) (ib : Box) :
    ∃ A old B, m.kids = A ++ old ++ B ∧ m.fill ib = ⟨m.flags, A ++ fillKids m ib ++ B⟩ ∧
      (∀ x ∈ B, ¬ x.fc = cc 'i' 'l' 's' 't') ∧
      ((∃ il, old = [il] ∧ il.fc = cc 'i' 'l' 's' 't') ∨ old = [] ∧ B = [] ∧ ∀ x ∈ A, ¬ x.fc = cc 'i' 'l' 's' 't') := by
  rcases last_split (fun b : Box => b.fc = cc 'i' 'l' 's' 't') m.kids with hk | ⟨A, il, B, hk, hil, hB⟩
  · exact ⟨m.kids, [], [], by simp, by rw [metaFill_none hk]; simp, by simp, .inr ⟨rfl, rfl, hk⟩⟩
  · exact ⟨A, [il], B, by rw [hk]; simp, metaFill_split hk hil hB, hB, .inl ⟨il, rfl, hil⟩⟩

theorem metaItems_fill {m : Meta} {ib : Box} {r items} (hc : ib.fc = cc 'i' 'l' 's' 't') (h : MetaItems m r) (hi : IlstBody ib.body items) :
    MetaItems (m.fill ib) (some items) := by
  obtain ⟨A, old, B, hk, hp, hB, _⟩ := metaFill_cases m ib
  obtain ⟨C, hC, hC'⟩ := fillKids_split m ib
  unfold MetaItems at h ⊢
  rw [hp, hC]
  rw [hk] at h
  refine LastOf_replace h ?_ (by rw [Box.sel, if_pos hc]) hi (fun x hx => by rw [Box.sel, if_neg (hB x hx)])
  intro x hx
  rcases hC' with ⟨rfl, _⟩ | ⟨rfl, _⟩
  · exact absurd hx (by simp)
  · rw [List.mem_singleton] at hx; subst hx; rw [Box.sel, if_neg (by decide)]

theorem udtaItems_fill {u : Udta} {ib : Box} {r items} (hc : ib.fc = cc 'i' 'l' 's' 't') (h : UdtaItems u r) (hi : IlstBody ib.body items) :
    UdtaItems (u.fill ib) (some items) := by
  obtain ⟨q, h1, _⟩ := h
  refine ⟨some (some items), ?_, rfl⟩
  rcases last_split isMeta u with hn | ⟨A, k, B, rfl, hk, hB⟩
  · rw [udtaFill_none hn]
    refine LastOf_snoc (sel := Kid.sel) (k := metaKid (newMetaB ib)) rfl (newMetaB_content hc hi) h1.1
  · cases k with
    | raw b => exact absurd hk id
    | node ext m =>
      rw [udtaFill_split hB]
      obtain ⟨r', hr'⟩ := h1.1 (.node ext m) (by simp) m rfl
      have := LastOf_replace (old := [.node ext m]) (A := A) (B := B) (C := []) (k := Kid.node ext (m.fill ib)) (sel := Kid.sel)
        (by simpa using h1) (by simp) rfl (metaItems_fill hc hr' hi) (fun x hx => by
          cases x with
          | node ext m => exact absurd trivial (hB _ hx)
          | raw b => rfl)
      simpa using this

/-- The movie before and after. -/
theorem moovFill_cases (g : Spec.Trak → Spec.Trak) (m : Spec.Moov) (ib : Box) :
    ((∀ k ∈ m, ¬ isUdta k) ∧ m.fill g ib = m.map (MoovKid.mapTrak g) ++ [udtaKid (newUdtaB ib)]) ∨
    ∃ A ext u B, m = A ++ .udta ext u :: B ∧ (∀ k ∈ B, ¬ isUdta k) ∧
      m.fill g ib = A.map (MoovKid.mapTrak g) ++ .udta ext (u.fill ib) :: B := by
  rcases last_split isUdta m with h | ⟨A, k, B, rfl, hk, hB⟩
  · exact .inl ⟨h, fill_none h⟩
  · cases k with
    | udta ext u => exact .inr ⟨A, ext, u, B, rfl, hB, fill_split hB⟩
    | _ => exact absurd hk id

theorem moovContent_fill {m : Spec.Moov} {ib : Box} {g : Spec.Trak → Spec.Trak} {dur audio r items} (hc : ib.fc = cc 'i' 'l' 's' 't')
    (hg : ∀ t r, TrakAudio t r → TrakAudio (g t) r) (h : MoovContent m dur audio r) (hi : IlstBody ib.body items) :
    MoovContent (m.fill g ib) dur audio (some items) := by
  obtain ⟨h1, ⟨as, h2, ha⟩, q, h3, _⟩ := h
  rcases moovFill_cases g m ib with ⟨hn, hp⟩ | ⟨A, ext, u, B, rfl, hB, hp⟩
  · rw [hp]
    refine ⟨LastOf_congr ?_ h1, ⟨as, ?_, ha⟩, some (some items), ?_, rfl⟩
    · rw [List.filterMap_append, filterMap_mapTrak _ _ (fun _ _ => rfl)]
      show _ ++ [] = _
      simp
    · rw [List.filterMap_append, trak_mapTrak]
      show All2 _ (_ ++ []) _
      rw [List.append_nil]
      exact All2_mapl hg h2
    · refine LastOf_snoc (sel := MoovKid.udta?) (k := udtaKid (newUdtaB ib)) rfl (newUdtaB_content hc hi) ?_
      intro k hk b hb
      obtain ⟨k', hk', rfl⟩ := List.mem_map.mp hk
      have hn' := hn k' hk'
      cases k' with
      | udta ext u => exact absurd trivial hn'
      | _ => exact absurd hb (by simp [MoovKid.mapTrak, MoovKid.udta?])
  · rw [hp]
    refine ⟨LastOf_congr ?_ h1, ⟨as, ?_, ha⟩, some (some items), ?_, rfl⟩
    · rw [List.filterMap_append, List.filterMap_append, filterMap_mapTrak _ _ (fun _ _ => rfl)]; rfl
    · rw [List.filterMap_append] at h2 ⊢
      obtain ⟨x, y, rfl, hx, hy⟩ := All2_split h2
      rw [trak_mapTrak]
      exact All2_append (All2_mapl hg hx) hy
    · obtain ⟨r', hr'⟩ := h3.1 (.udta ext u) (by simp) u rfl
      have h3' : LastOf MoovKid.udta? UdtaItems (A.map (MoovKid.mapTrak g) ++ [.udta ext u] ++ B) q := by
        refine LastOf_congr ?_ h3
        rw [List.append_assoc, List.filterMap_append, filterMap_mapTrak MoovKid.udta? _ (fun _ _ => rfl), List.filterMap_append]
        simp [List.filterMap_append, MoovKid.udta?]
      have := LastOf_replace (C := []) (k := MoovKid.udta ext (u.fill ib)) h3' (by simp) rfl (udtaItems_fill hc hr' hi)
        (fun x hx => udta_none (hB x hx))
      simpa using this

/-- The content of the file after writing. -/
theorem fill_content {f : File} {ib : Box} {t : Tag} {items} (hc : ib.fc = cc 'i' 'l' 's' 't') (h : f.Content t) (hi : IlstBody ib.body items) :
    (f.fill ib).Content { ftyp := t.ftyp, info := t.info, atoms := group items } := by
  obtain ⟨dur, audio, r, h1, rfl⟩ := h
  refine ⟨dur, audio, some items, ?_, rfl⟩
  refine moovContent_fill hc ?_ h1 hi
  intro t r ht
  split
  · exact trakAudio_shift ht
  · exact ht

/-! ### Well-formedness -/

theorem newMetaB_WF {ib : Box} (hib : ib.Fits) : (newMetaB ib).WF := by
  refine ⟨rfl, ?_⟩
  intro b hb
  simp only [newMetaB, List.mem_cons, List.not_mem_nil, or_false] at hb
  rcases hb with rfl | rfl
  · exact mkBox_fits _ _
  · exact hib

theorem metaFill_WF {m : Meta} {ib : Box} (hib : ib.Fits) (h : m.WF) : (m.fill ib).WF := by
  obtain ⟨A, old, B, hk, hp, -, -⟩ := metaFill_cases m ib
  rw [hp]
  refine ⟨h.1, fun b hb => ?_⟩
  rcases List.mem_append.mp hb with hb | hb
  · rcases List.mem_append.mp hb with hb | hb
    · exact h.2 b (by rw [hk]; simp [hb])
    · obtain ⟨C, hC, hC'⟩ := fillKids_split m ib
      rw [hC] at hb
      rcases List.mem_append.mp hb with hb | hb
      · rcases hC' with ⟨rfl, _⟩ | ⟨rfl, _⟩
        · exact absurd hb (by simp)
        · rw [List.mem_singleton.mp hb]; exact mkBox_fits _ _
      · rw [List.mem_singleton.mp hb]; exact hib
  · exact h.2 b (by rw [hk]; simp [hb])

/-- Sizes apart, changing the user data keeps it well-formed. -/
theorem udtaFill_WF {u : Udta} {ib : Box} (hib : ib.Fits) (h : u.WF)
    (hf : ∀ x ∈ u.fill ib, (Kid.box (cc 'm' 'e' 't' 'a') Meta.ser x).Fits) : (u.fill ib).WF := by
  intro k hk
  refine ⟨hf k hk, ?_⟩
  rcases last_split isMeta u with hn | ⟨A, x, B, rfl, hx, hB⟩
  · rw [udtaFill_none hn] at hk
    rcases List.mem_append.mp hk with hk | hk
    · exact (h k hk).2
    · rw [List.mem_singleton.mp hk]; exact newMetaB_WF hib
  · cases x with
    | raw b => exact absurd hx id
    | node ext m =>
      rw [udtaFill_split hB] at hk
      rcases List.mem_append.mp hk with hk | hk
      · exact (h k (by simp [hk])).2
      · rcases List.mem_cons.mp hk with rfl | hk
        · exact metaFill_WF hib (h (.node ext m) (by simp)).2
        · exact (h k (by simp [hk])).2

theorem fill_WF {f : File} {ib : Box} (hib : ib.Fits) (hw : f.WF) (ht : f.MediaBehind → f.moov.Tables) (hp : f.FillFits ib) :
    (f.fill ib).WF := by
  obtain ⟨h1, h2, h3, h4, h5⟩ := hw
  obtain ⟨hp1, hp2⟩ := hp
  refine ⟨h1, hp1, ?_, h4, h5⟩
  have hg : ∀ ext t, MoovKid.trak ext t ∈ f.moov → t.WF →
      ((if f.MediaBehind then Spec.Trak.shift (f.growthB ib) else id) t).WF ∧
      ((if f.MediaBehind then Spec.Trak.shift (f.growthB ib) else id) t).ser.length = t.ser.length := by
    intro ext t htr hwt
    refine ⟨?_, shift_ser_length ht _ ext t htr⟩
    split
    · rename_i hm; exact trak_shift_WF (ht hm ext t htr) hwt
    · exact hwt
  show Moov.WF (f.moov.fill _ ib)
  rcases moovFill_cases (if f.MediaBehind then Spec.Trak.shift (f.growthB ib) else id) f.moov ib with ⟨hn, hpe⟩ | ⟨A, ext, u, B, he, hB, hpe⟩
  · have hp3 := hp2
    rw [show (f.fill ib).moov = _ from hpe] at hp3
    rw [hpe]
    intro k hk
    rcases List.mem_append.mp hk with hk | hk
    · exact mapTrak_WF h3 hg k hk
    · have hk' := List.mem_singleton.mp hk
      subst hk'
      obtain ⟨ha, hb⟩ := hp3 _ (List.mem_append.mpr (.inr hk))
      refine ⟨ha, fun x hx => ⟨hb _ _ rfl x hx, ?_⟩⟩
      rw [List.mem_singleton.mp hx]; exact newMetaB_WF hib
  · have hp3 := hp2
    rw [show (f.fill ib).moov = _ from hpe] at hp3
    rw [hpe]
    rw [he] at h3 hg
    intro k hk
    rcases List.mem_append.mp hk with hk' | hk'
    · exact mapTrak_WF (fun k hk => h3 k (by simp [hk])) (fun ext t ht => hg ext t (by simp [ht])) k hk'
    · rcases List.mem_cons.mp hk' with rfl | hk'
      · obtain ⟨ha, hb⟩ := hp3 _ hk
        exact ⟨ha, udtaFill_WF hib (h3 (.udta ext u) (by simp)).2 (hb _ _ rfl)⟩
      · exact h3 k (by simp [hk'])

/-- Small files: the sizes fit. -/
theorem fillFits_of_small {f : File} {ib : Box} (h : (f.fill ib).moov.ser.length + 8 < 2^32) : f.FillFits ib := by
  refine ⟨fun _ => h, fun k hk => ?_⟩
  have hk' := serL_mem_le (box := MoovKid.box) hk
  have hkl := Box.ser_length k.box
  unfold Spec.Moov.ser at h
  refine ⟨fun _ => by omega, ?_⟩
  rintro ext u rfl x hx _
  have h1 := serL_mem_le (box := Kid.box (cc 'm' 'e' 't' 'a') Meta.ser) hx
  have h2 := Box.ser_length (Kid.box (cc 'm' 'e' 't' 'a') Meta.ser x)
  have h3 : (MoovKid.udta ext u).box.body = serL (Kid.box (cc 'm' 'e' 't' 'a') Meta.ser) u := rfl
  rw [h3] at hkl
  omega

/-- The tables remain well-formed. -/
theorem fill_tables {f : File} {ib : Box} (ht : f.MediaBehind → f.moov.Tables)
    (hr : f.MediaBehind → f.moov.InRange (f.growthB ib)) : (f.fill ib).MediaBehind → (f.fill ib).moov.Tables := by
  intro hm
  have hm' : f.MediaBehind := hm
  intro ext t htr
  have hmv : (f.fill ib).moov = f.moov.fill (Spec.Trak.shift (f.growthB ib)) ib := by rw [File.fill, if_pos hm']
  rw [hmv] at htr
  have hmap : ∀ ks : List MoovKid, (∀ k ∈ ks, k ∈ f.moov) → .trak ext t ∈ ks.map (MoovKid.mapTrak (Spec.Trak.shift (f.growthB ib))) → t.Tables := by
    intro ks hks h
    obtain ⟨k, hk, he⟩ := List.mem_map.mp h
    cases k with
    | trak ext' t' =>
      injection he with _ he
      subst he
      exact trak_shift_tables (ht hm' _ _ (hks _ hk)) (hr hm' _ _ (hks _ hk))
    | udta => exact absurd he (by simp [MoovKid.mapTrak])
    | raw => exact absurd he (by simp [MoovKid.mapTrak])
  rcases moovFill_cases (Spec.Trak.shift (f.growthB ib)) f.moov ib with ⟨hn, hpe⟩ | ⟨A, ext', u, B, he, hB, hpe⟩
  · rw [hpe] at htr
    rcases List.mem_append.mp htr with h | h
    · exact hmap _ (fun k hk => hk) h
    · exact absurd (List.mem_singleton.mp h) (by simp [udtaKid])
  · rw [hpe] at htr
    rcases List.mem_append.mp htr with h | h
    · exact hmap A (fun k hk => by rw [he]; simp [hk]) h
    · rcases List.mem_cons.mp h with h | h
      · exact absurd h (by simp)
      · exact ht hm' ext t (by rw [he]; simp [h])

/-! ### The item list -/

theorem cutBox_fits (atoms : List AtomData) : (cutBox atoms).Fits := mkBox_fits _ _

theorem cutBox_fc (atoms : List AtomData) : (cutBox atoms).fc = cc 'i' 'l' 's' 't' := rfl

theorem cut_length (atoms : List AtomData) : ((listBytes atoms).take (listClaim atoms)).length = listClaim atoms := by
  rw [List.length_take, listBytes_length]; omega

theorem cut_carry {atoms : List AtomData} (h : ∀ a ∈ atoms, (entryOf a).box.Fits) :
    Carry atoms (cutBox atoms) ((listBytes atoms).drop (listClaim atoms)) where
  size := by rw [ilstSize_raw, cutBox, mkBox_size, cut_length, listClaim_eq]
  emits := by
    refine (writeIlst_raw h).eq ?_
    rw [Box.ser, show (cutBox atoms).body = (listBytes atoms).take (listClaim atoms) from rfl, List.append_assoc, List.take_append_drop, listRaw_bytes]
    congr 1
    simp only [claim, cutBox, mkBox, Box.head, cut_length, List.length_replicate]
    rw [listClaim_eq]
    rfl

theorem units_plain {d : Data} (h : noUtf16Text d) : units d = 0 := by
  cases d with
  | utf16 s => rw [show s = [] from h]; rfl
  | _ => rfl

theorem units_sum {ds : List Data} (h : ∀ d ∈ ds, noUtf16Text d) : (ds.map units).sum = 0 := by
  induction ds with
  | nil => rfl
  | cons d ds ih => rw [List.map_cons, List.sum_cons, units_plain (h d (by simp)), ih (fun d hd => h d (by simp [hd]))]

theorem surplus_last {L : List AtomData} {i : DataIdent} {ds : List Data} {s : Str} (hL : ∀ x ∈ L, ∀ d ∈ x.data, noUtf16Text d)
    (hds : ∀ d ∈ ds, noUtf16Text d) : surplus (L ++ [⟨i, ds ++ [.utf16 s]⟩]) = (utf16 s).length := by
  have h1 : (L.map fun a => (a.data.map units).sum).sum = 0 := by
    induction L with
    | nil => rfl
    | cons a L ih => rw [List.map_cons, List.sum_cons, units_sum (hL a (by simp)), ih (fun x hx => hL x (by simp [hx]))]
  rw [surplus, List.map_append, List.sum_append, h1]
  simp only [List.map_cons, List.map_nil, List.map_append, List.sum_append, List.sum_cons, List.sum_nil, units_sum hds, units]
  omega

theorem utf16be_len (s : Str) : (utf16be s).length = 2 * (utf16 s).length := by rw [utf16be_length, utf16Enc_spec]

/-- The item that is left if the last value is a text: the first bytes of the text, one for each unit. -/
def cutEntry (i : DataIdent) (ds : List Data) (s y : Str) : Entry :=
  .item false (identFc i) (texts i ++ ds.map dataPart ++ [.data false 2 [0, 0, 0, 0] ((utf16be s).take (utf16 s).length) (.utf16 y)])

theorem cutEntry_length {i : DataIdent} {ds : List Data} {s y : Str} (hds : ∀ d ∈ ds, noUtf16Text d) :
    (cutEntry i ds s y).box.body.length = claimed ⟨i, ds ++ [.utf16 s]⟩ := by
  have h1 : ∀ ds : List Data, (∀ d ∈ ds, noUtf16Text d) → (serL Part.box (ds.map dataPart)).length = (ds.map fun d => 16 + d.len).sum := by
    intro ds h
    induction ds with
    | nil => rfl
    | cons d ds ih =>
      rw [List.map_cons, serL_cons, List.length_append, ih (fun d hd => h d (by simp [hd])), List.map_cons, List.sum_cons,
        dataLen_eq (h d (by simp)), dataPart_len]
  show (serL Part.box (texts i ++ ds.map dataPart ++ [_])).length = _
  rw [serL_append, serL_append, serL_cons, serL_nil, List.length_append, List.length_append, h1 ds hds, List.append_nil, Box.ser_length]
  have h2 : (Part.data false 2 [0, 0, 0, 0] ((utf16be s).take (utf16 s).length) (.utf16 y)).box.body.length = 8 + (utf16 s).length := by
    show (be32 2 ++ [0, 0, 0, 0] ++ _).length = _
    have := utf16be_len s
    simp only [List.length_append, be32_length, List.length_take, List.length_cons, List.length_nil]
    omega
  have h3 : (Part.data false 2 [0, 0, 0, 0] ((utf16be s).take (utf16 s).length) (.utf16 y)).box.headLen = 8 := rfl
  have h4 : (Data.utf16 s).len = (utf16 s).length := by rw [← utf16Enc_spec]; rfl
  rw [h2, h3, claimed]
  simp only [List.map_append, List.sum_append, List.map_cons, List.map_nil, List.sum_cons, List.sum_nil, h4]
  omega

theorem cutEntry_raw {i : DataIdent} {ds : List Data} {s y : Str} (hds : ∀ d ∈ ds, noUtf16Text d) :
    itemRaw ⟨i, ds ++ [.utf16 s]⟩ = (cutEntry i ds s y).box.ser ++ (utf16be s).drop (utf16 s).length := by
  have h4 : (Data.utf16 s).len = (utf16 s).length := by rw [← utf16Enc_spec]; rfl
  have h1 : ∀ ds : List Data, (∀ d ∈ ds, noUtf16Text d) → ds.flatMap dataRaw = serL Part.box (ds.map dataPart) := by
    intro ds h
    induction ds with
    | nil => rfl
    | cons d ds ih => rw [List.map_cons, serL_cons, List.flatMap_cons, ih (fun d hd => h d (by simp [hd])), dataRaw_eq (h d (by simp))]
  have h2 : dataRaw (.utf16 s) = (Part.data false 2 [0, 0, 0, 0] ((utf16be s).take (utf16 s).length) (.utf16 y)).box.ser
      ++ (utf16be s).drop (utf16 s).length := by
    have h5 : (Part.data false 2 [0, 0, 0, 0] ((utf16be s).take (utf16 s).length) (.utf16 y)).box.body.length = 8 + (utf16 s).length := by
      show (be32 2 ++ [0, 0, 0, 0] ++ _).length = _
      have := utf16be_len s
      simp only [List.length_append, be32_length, List.length_take, List.length_cons, List.length_nil]
      omega
    rw [dataRaw, small_head, Box.ser, Box.head, h5, h4]
    show _ = (be32 (8 + (utf16 s).length + 8) ++ DATA.bytes) ++ (be32 2 ++ [0, 0, 0, 0] ++ _) ++ _
    simp only [List.append_assoc, List.take_append_drop]
    rfl
  rw [itemRaw, small_head, ← cutEntry_length (y := y) hds, Box.ser, Box.head, List.flatMap_append, h1 ds hds, List.flatMap_cons, List.flatMap_nil, h2]
  show _ = (be32 (_ + 8) ++ (identFc i).bytes) ++ serL Part.box (texts i ++ ds.map dataPart ++ [_]) ++ _
  rw [serL_append, serL_append, serL_cons, serL_nil]
  simp only [List.append_assoc, List.append_nil]

theorem cutEntry_decoded (i : DataIdent) (ds : List Data) (s y : Str) : (cutEntry i ds s y).decoded = some (i, ds ++ [.utf16 y]) := by
  rw [← show (entryOf ⟨i, ds ++ [.utf16 y]⟩).decoded = some (i, ds ++ [.utf16 y]) from entryOf_decoded _, entryOf_eq, cutEntry]
  simp only [Entry.decoded, itemKey, List.map_append, List.filterMap_append, List.map_cons, List.map_nil, List.append_assoc]
  rfl

theorem cut_enc {s y : Str} (hy : utf16 y = (utf16 s).take ((utf16 s).length / 2)) :
    ValueEnc 2 ((utf16be s).take (utf16 s).length) (.utf16 y) := by
  have h1 : utf16be s = utf16be y ++ ((utf16 s).drop ((utf16 s).length / 2)).flatMap Spec.be16 := by
    rw [utf16be, utf16be, hy, ← List.flatMap_append, List.take_append_drop]
  have h2 := utf16be_len y
  rw [hy, List.length_take] at h2
  rw [h1, List.take_append, List.take_of_length_le (by omega)]
  exact .utf16 _ _ (by rw [List.length_take]; omega)

/-- If the last value is a text, and the only one: the item list is that of the entries with half of the text. -/
theorem cut_last {L : List AtomData} {i : DataIdent} {ds : List Data} {s y : Str} (hL : ∀ x ∈ L, Visible x ∧ ∀ d ∈ x.data, noUtf16Text d)
    (hds : ∀ d ∈ ds, noUtf16Text d) (hi : i ≠ .fourcc (cc 'f' 'r' 'e' 'e'))
    (hfit : ∀ a ∈ L ++ [⟨i, ds ++ [.utf16 s]⟩], (entryOf a).box.Fits) (hy : utf16 y = (utf16 s).take ((utf16 s).length / 2)) :
    IlstBody (cutBox (L ++ [⟨i, ds ++ [.utf16 s]⟩])).body ((L ++ [(⟨i, ds ++ [.utf16 y]⟩ : AtomData)]).map fun a => (a.ident, a.data)) := by
  have hfa := hfit ⟨i, ds ++ [.utf16 s]⟩ (by simp)
  have hva : Visible ⟨i, ds ++ [.utf16 s]⟩ := ⟨by simp, hi⟩
  refine ⟨L.map entryOf ++ [cutEntry i ds s y], ?_, ?_, ?_⟩
  · intro x hx
    rcases List.mem_append.mp hx with hx | hx
    · obtain ⟨a, ha, rfl⟩ := List.mem_map.mp hx
      exact entryOf_WF (hfit a (by simp [ha])) (hL a ha).1
    · rw [List.mem_singleton.mp hx]
      have h1 := entry_lt hfa
      have h2 := claimed_le ⟨i, ds ++ [.utf16 s]⟩
      have h3 := cutEntry_length (i := i) (ds := ds) (s := s) (y := y) hds
      refine ⟨fun _ => by omega, identFc_ne hva, ?_, ?_⟩
      · intro p hp
        rcases List.mem_append.mp hp with hp | hp
        · rcases List.mem_append.mp hp with hp | hp
          · exact texts_wf hfa hp
          · obtain ⟨d, hd, rfl⟩ := List.mem_map.mp hp
            exact data_wf hfa (by simp [hd])
        · rw [List.mem_singleton.mp hp]
          refine ⟨fun _ => ?_, rfl, cut_enc hy⟩
          have h5 : (Part.data false 2 [0, 0, 0, 0] ((utf16be s).take (utf16 s).length) (.utf16 y)).box.ser.length
              ≤ (cutEntry i ds s y).box.body.length := by
            show _ ≤ (serL Part.box (texts i ++ ds.map dataPart ++ [_])).length
            rw [serL_append, serL_cons, serL_nil, List.length_append, List.append_nil]; omega
          rw [Box.ser_length] at h5
          have h6 : (Part.data false 2 [0, 0, 0, 0] ((utf16be s).take (utf16 s).length) (.utf16 y)).box.headLen = 8 := rfl
          omega
      · simp [List.filterMap_append, Part.value?]
  · show (listBytes _).take _ = _
    have h1 : listBytes (L ++ [⟨i, ds ++ [.utf16 s]⟩]) = serL Entry.box (L.map entryOf ++ [cutEntry i ds s y]) ++ (utf16be s).drop (utf16 s).length := by
      rw [← listRaw_bytes, List.flatMap_append, (goodRaw L (fun x hx => (hL x hx).2)).1, List.flatMap_cons, List.flatMap_nil, cutEntry_raw (y := y) hds,
        serL_append, serL_cons, serL_nil]
      simp only [serL, List.flatMap_map, List.append_assoc, List.append_nil]
    have h2 := listBytes_length (L ++ [⟨i, ds ++ [.utf16 s]⟩])
    have h3 := utf16be_len s
    rw [surplus_last (fun x hx => (hL x hx).2) hds, h1, List.length_append, List.length_drop] at h2
    rw [h1]
    exact List.take_left' (by omega)
  · rw [List.filterMap_append, List.map_append]
    congr 1
    · clear hva hfa hfit hL
      induction L with
      | nil => rfl
      | cons a L ih =>
        rw [List.map_cons, List.map_cons, List.filterMap_cons_some (entryOf_decoded a), ← ih]
    · rw [List.filterMap_cons_some (cutEntry_decoded i ds s y)]; rfl

/-- For ordinary items this is the writing of Spec/Update. -/
theorem fill_put (f : File) (atoms : List AtomData) : f.fill (ilstBox atoms) = f.put atoms := by
  have hm : ∀ m : Meta, m.fill (ilstBox atoms) = m.put atoms := fun m => rfl
  have hu : ∀ u : Udta, u.fill (ilstBox atoms) = u.put atoms := by
    intro u
    rw [Udta.fill, Udta.put]
    congr 1
  have hv : ∀ (g : Spec.Trak → Spec.Trak) (m : Spec.Moov), Moov.fillUdta g (ilstBox atoms) m = Moov.putUdta g atoms m := by
    intro g m
    induction m with
    | nil => rfl
    | cons k ks ih =>
      cases k with
      | udta ext u => rw [Moov.fillUdta, Moov.putUdta, ih, hu]; cases Moov.putUdta g atoms ks <;> rfl
      | trak ext t => rw [Moov.fillUdta.eq_def, Moov.putUdta.eq_def]; simp only [ih]; cases Moov.putUdta g atoms ks <;> rfl
      | raw b => rw [Moov.fillUdta.eq_def, Moov.putUdta.eq_def]; simp only [ih]; cases Moov.putUdta g atoms ks <;> rfl
  have ho : ∀ (g : Spec.Trak → Spec.Trak) (m : Spec.Moov), m.fill g (ilstBox atoms) = m.put g atoms := by
    intro g m
    rw [Moov.fill, Moov.put, hv]; rfl
  rw [File.fill, File.put, File.growthB, File.growth, ho, ho]

theorem cut_plain {atoms : List AtomData} (h : ∀ a ∈ atoms, ∀ d ∈ a.data, noUtf16Text d) : cutBox atoms = ilstBox atoms := by
  obtain ⟨h1, h2⟩ := goodRaw atoms h
  rw [cutBox, ilstBox, ← listRaw_bytes, h1, listClaim_eq, ← h2, List.take_length]
  simp only [serL, List.flatMap_map]

/-! ### Everything else is kept -/

theorem metaKept_fill {ib : Box} (hc : ib.fc = cc 'i' 'l' 's' 't') (m : Meta) : MetaKept m (m.fill ib) := by
  obtain ⟨A, old, B, hk, hp, hB, hcase⟩ := metaFill_cases m ib
  rw [hp]
  refine ⟨rfl, A, old, fillKids m ib, B, hk, rfl, ?_, ?_, ?_⟩
  · rcases hcase with ⟨il, rfl, _⟩ | ⟨rfl, _⟩ <;> simp
  · rcases hcase with ⟨il, rfl, h⟩ | ⟨rfl, _⟩
    · intro b hb; rw [List.mem_singleton.mp hb]; exact h
    · simp
  · obtain ⟨C, hC, ⟨rfl, h⟩ | ⟨rfl, h⟩⟩ := fillKids_split m ib
    · exact .inl ⟨ib, hC, hc⟩
    · exact .inr ⟨hdlrBox, ib, hC, rfl, hc, fun b hb hfc => h ⟨b, hb, hfc⟩⟩

theorem udtaKept_fill {ib : Box} (hc : ib.fc = cc 'i' 'l' 's' 't') (u : Udta) : UdtaKept u (u.fill ib) := by
  rcases last_split isMeta u with hn | ⟨A, k, B, rfl, hk, hB⟩
  · exact .inr ⟨sel_none_of hn, _, _, udtaFill_none hn⟩
  · cases k with
    | raw b => exact absurd hk id
    | node ext m => exact .inl ⟨A, ext, m, _, B, rfl, udtaFill_split hB, metaKept_fill hc m⟩

theorem fill_kept {f : File} {ib : Box} (hc : ib.fc = cc 'i' 'l' 's' 't') (ht : f.MediaBehind → f.moov.Tables) : MoovKept f.moov (f.fill ib).moov := by
  have hg : ∀ ext t, MoovKid.trak ext t ∈ f.moov → ((if f.MediaBehind then Spec.Trak.shift (f.growthB ib) else id) t).blank = t.blank := by
    intro ext t h
    split
    · rename_i hm; exact trak_blank (ht hm ext t h)
    · rfl
  show MoovKept f.moov (f.moov.fill _ ib)
  rcases moovFill_cases (if f.MediaBehind then Spec.Trak.shift (f.growthB ib) else id) f.moov ib with ⟨hn, hp⟩ | ⟨A, ext, u, B, he, hB, hp⟩
  · rw [hp]; exact .inr ⟨udta_none_of hn, _, _, _, rfl, All2_kidKept hg⟩
  · rw [hp]
    refine .inl ⟨A, _, ext, u, _, B, B, he, rfl, udtaKept_fill hc u, All2_kidKept (fun ext t ht => hg ext t (by rw [he]; simp [ht])), ?_⟩
    have := All2_kidKept (g := id) (ks := B) (fun _ _ _ => rfl)
    rwa [mapTrak_id] at this

/-! ### Texts without surrogates -/

theorem utf16_bmp {s : Str} (h : ∀ c ∈ s, c.toNat < 2^16) : utf16 s = s.map Char.toNat := by
  induction s with
  | nil => rfl
  | cons c s ih =>
    rw [utf16, List.flatMap_cons, ← utf16, ih (fun c hc => h c (by simp [hc])), utf16Char, if_pos (h c (by simp))]; rfl

theorem half_bmp {s : Str} (h : ∀ c ∈ s, c.toNat < 2^16) : utf16 (s.take (s.length / 2)) = (utf16 s).take ((utf16 s).length / 2) := by
  rw [utf16_bmp h, utf16_bmp (fun c hc => h c (List.mem_of_mem_take hc)), List.length_map, List.map_take]

end Mp4
