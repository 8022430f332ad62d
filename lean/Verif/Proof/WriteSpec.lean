import Verif.Proof.Plan
import Verif.Spec.Cost
/-
Writing to a well-formed file yields the file of the specification.
-/
namespace Mp4
open Spec

/-- The child is a `udta`. -/
def isUdta : MoovKid → Prop
  | .udta _ _ => True
  | _ => False

theorem putUdta_none {g atoms} {ks : Spec.Moov} (h : ∀ k ∈ ks, ¬ isUdta k) : Moov.putUdta g atoms ks = none := by
  induction ks with
  | nil => rfl
  | cons k ks ih =>
    have hk := h k (by simp)
    have hi := ih (fun x hx => h x (by simp [hx]))
    cases k with
    | udta ext u => exact absurd trivial hk
    | _ => simp only [Moov.putUdta, hi]

theorem putUdta_split {g atoms} {A B : List MoovKid} {ext u} (hB : ∀ x ∈ B, ¬ isUdta x) :
    Moov.putUdta g atoms (A ++ .udta ext u :: B) = some (A.map (MoovKid.mapTrak g) ++ .udta ext (u.put atoms) :: B) := by
  induction A with
  | nil => rw [List.nil_append, Moov.putUdta, putUdta_none hB]; rfl
  | cons a A ih => simp only [List.cons_append, Moov.putUdta, ih, List.map_cons]

theorem udtaAt_none {k : MoovKid} (h : ¬ isUdta k) (q : Nat) : udtaAt q k = none := by
  cases k with
  | udta ext u => exact absurd trivial h
  | _ => rfl

/-! ### The place of the item list in `meta` -/

/-- The atoms inserted into an existing `meta`. -/
def newKids (m : Meta) (atoms : List AtomData) : List Box :=
  if ∃ b ∈ m.kids, b.fc = cc 'h' 'd' 'l' 'r' then [ilstBox atoms] else [hdlrBox, ilstBox atoms]

theorem lastAt_leaf_isNone (fc : Fourcc) (p : Nat) (ks : List Box) :
    (lastAt id (leafAt fc) p ks).isNone = !decide (∃ b ∈ ks, b.fc = fc) := by
  rcases last_split (fun b : Box => b.fc = fc) ks with h | ⟨A, k, B, rfl, hk, hB⟩
  · rw [lastAt_none (fun k hk q => by rw [leafAt, if_neg (h k hk)])]
    have : ¬ ∃ b ∈ ks, b.fc = fc := fun ⟨b, hb, h'⟩ => h b hb h'
    simp [this]
  · rw [lastAt_split (b := ⟨p + (serL id A).length, k.size⟩) (by rw [leafAt, if_pos hk])
      (fun x hx q => by rw [leafAt, if_neg (hB x hx)])]
    have : ∃ b ∈ A ++ k :: B, b.fc = fc := ⟨k, by simp, hk⟩
    rw [decide_eq_true this]; rfl

theorem newKids_ser (m : Meta) (atoms : List AtomData) (p : Nat) :
    serL id (newKids m atoms) = (if (lastAt id (leafAt HANDLER_REFERENCE) p m.kids).isNone then hdlrBox.ser else []) ++ (ilstBox atoms).ser := by
  rw [lastAt_leaf_isNone, newKids]
  by_cases h : ∃ b ∈ m.kids, b.fc = cc 'h' 'd' 'l' 'r'
  · have h' : ∃ b ∈ m.kids, b.fc = HANDLER_REFERENCE := h
    rw [if_pos h, decide_eq_true h', serL_cons, serL_nil]; simp
  · have h' : ¬ ∃ b ∈ m.kids, b.fc = HANDLER_REFERENCE := h
    rw [if_neg h, decide_eq_false h', serL_cons, serL_cons, serL_nil]; simp

theorem newKids_length {m : Meta} {atoms : List AtomData} :
    (serL id (newKids m atoms)).length ≤ hdlrBox.ser.length + (ilstBox atoms).ser.length := by
  rw [newKids]
  split
  · rw [serL_cons, serL_nil]; simp
  · rw [serL_cons, serL_cons, serL_nil]; simp

theorem insertLen_eq {m : Meta} {atoms : List AtomData} {p : Nat} (h : ∀ a ∈ atoms, Storable a) :
    insertLen (lastAt id (leafAt HANDLER_REFERENCE) p m.kids) atoms = (serL id (newKids m atoms)).length := by
  rw [newKids_ser m atoms p, insertLen, ilstSize_eq h, size_len]
  cases (lastAt id (leafAt HANDLER_REFERENCE) p m.kids).isNone
  · simp [lenOrZero]
  · simp only [if_true, lenOrZero, hdlrSize_eq, size_len, List.length_append]

theorem insert_emits {m : Meta} {atoms : List AtomData} {p : Nat} (h : ∀ a ∈ atoms, Storable a) {a b d u}
    (hp : plan = ⟨a, b, d, u, none, none, if (lastAt id (leafAt HANDLER_REFERENCE) p m.kids).isNone then some metaHdlr else none⟩) :
    Emits (newAtomsWr plan atoms) (serL id (newKids m atoms)) := by
  rw [newKids_ser m atoms p, hp]
  cases (lastAt id (leafAt HANDLER_REFERENCE) p m.kids).isNone
  · exact Emits.seq Emits.pure (writeIlst_emits h)
  · exact Emits.seq writeHdlr_emits (writeIlst_emits h)

theorem lastOf_none {κ β : Type} {sel : κ → Option β} {ks : List κ} (h : ∀ k ∈ ks, sel k = none) : lastOf sel ks = none := by
  induction ks with
  | nil => rfl
  | cons k ks ih => rw [lastOf, ih fun x hx => h x (by simp [hx]), h k (by simp)]; rfl

theorem lastOf_split {κ β : Type} {sel : κ → Option β} {A B : List κ} {k : κ} {b : β} (hk : sel k = some b) (hB : ∀ x ∈ B, sel x = none) :
    lastOf sel (A ++ k :: B) = some (b, B) := by
  induction A with
  | nil => rw [List.nil_append, lastOf, lastOf_none hB, hk]; rfl
  | cons a A ih => rw [List.cons_append, lastOf, ih]; rfl

/-! ### The place of the item list in the movie atom -/

/-- How the bytes of the movie atom are divided, and how they are changed. -/
structure Place (e : Env) (q : Nat) (b : Box) (m : Spec.Moov) (atoms : List AtomData) where
  before : List MoovKid
  inner : Heads
  old : Bytes
  new : Bytes
  rest : Bytes
  plan : Plan
  sub : ∀ k ∈ before, k ∈ m
  ser : serL MoovKid.box m = serL MoovKid.box before ++ inner.old ++ old ++ rest
  put : ∀ g, serL MoovKid.box (m.put g atoms) = serL MoovKid.box (before.map (MoovKid.mapTrak g)) ++ inner.new ++ new ++ rest
  mapped : ∀ g, ∃ R, serL MoovKid.box (m.map (MoovKid.mapTrak g)) = serL MoovKid.box (before.map (MoovKid.mapTrak g)) ++ inner.old ++ R
  ok : inner.OK ((new.length : Int) - old.length)
  plans : mkPlan (moovB q b m) atoms e = .ok plan
  start : plan.newAtomsStart = q + b.headLen + (serL MoovKid.box before).length + inner.old.length
  moved : plan.movedDataStart = plan.newAtomsStart + old.length
  diff : plan.lenDiff = (new.length : Int) - old.length
  bounds : plan.updateAtoms.reverse = ⟨q, b.size⟩ :: inner.bounds (q + b.headLen + (serL MoovKid.box before).length)
  emits : Emits (newAtomsWr plan atoms) new
  small : old = [] ∨ new.length ≤ hdlrBox.ser.length + (ilstBox atoms).ser.length
  few : List.length inner ≤ 2
  fields : (inner.map fun h => fieldLen h.1.ext).sum = (m.change atoms).fields
  fresh : new = (m.change atoms).fresh
  behind : rest = (m.change atoms).behind

theorem put_none {g atoms} {ks : Spec.Moov} (h : ∀ k ∈ ks, ¬ isUdta k) :
    Moov.put g atoms ks = ks.map (MoovKid.mapTrak g) ++ [udtaKid (newUdta atoms)] := by rw [Moov.put, putUdta_none h]; rfl

theorem put_split {g atoms} {A B : List MoovKid} {ext u} (hB : ∀ x ∈ B, ¬ isUdta x) :
    Moov.put g atoms (A ++ .udta ext u :: B) = A.map (MoovKid.mapTrak g) ++ .udta ext (u.put atoms) :: B := by
  rw [Moov.put, putUdta_split hB]; rfl

theorem change_moov {m : Spec.Moov} {atoms : List AtomData} (hn : ∀ k ∈ m, ¬ isUdta k) :
    m.change atoms = ⟨0, (mkBox (cc 'u' 'd' 't' 'a') (newUdta atoms).ser).ser, []⟩ := by
  rw [Moov.change, lastOf_none]
  intro k hk
  cases k with
  | udta ext u => exact absurd trivial (hn _ hk)
  | _ => rfl

theorem change_udta {A B : List MoovKid} {ext : Bool} {u : Udta} {atoms : List AtomData} (hB : ∀ k ∈ B, ¬ isUdta k) :
    Spec.Moov.change atoms (A ++ .udta ext u :: B) =
      ⟨fieldLen ext + (u.change atoms).fields, (u.change atoms).fresh, (u.change atoms).behind ++ serL MoovKid.box B⟩ := by
  rw [Moov.change, lastOf_split (sel := udtaOf) (b := (ext, u)) rfl]
  intro k hk
  cases k with
  | udta ext u => exact absurd trivial (hB _ hk)
  | _ => rfl

/-- There is no `udta`. -/
theorem place_moov {e q} {b : Box} {m : Spec.Moov} {atoms : List AtomData} (hs : ∀ a ∈ atoms, Storable a) (hb : b.body = serL MoovKid.box m)
    (h1 : q + b.ser.length < 2^62) (h2 : (serL MoovKid.box (m.put id atoms)).length < 2^62)
    (hn : ∀ k ∈ m, ¬ isUdta k) : Nonempty (Place e q b m atoms) := by
  obtain ⟨hw1, hw2⟩ := writeUdta_emits hs
  rw [put_none hn, serL_append, serL_cons, serL_nil, udtaKid_box] at h2
  simp only [List.length_append, List.length_nil] at h2
  rw [Box.ser_length, hb] at h1
  have hu : (moovB q b m).udta = none := lastAt_none (fun k hk q => udtaAt_none (hn k hk) q) _
  have hpl := mkPlan_moov (e := e) (atoms := atoms) (mb := moovB q b m) (q := q) (sz := b.size) rfl hu
    (by rw [size_len, Box.ser_length, hb]; omega) (by rw [hw1, size_len]; omega)
  refine ⟨{ before := m, inner := [], old := [], new := (mkBox (cc 'u' 'd' 't' 'a') (newUdta atoms).ser).ser, rest := [],
            plan := _, sub := fun _ h => h, ser := ?_, put := fun g => ?_, mapped := fun g => ⟨[], ?_⟩, ok := ?_, plans := hpl, start := ?_,
            moved := ?_, diff := ?_, bounds := ?_, emits := ?_, small := .inl rfl, few := by simp,
            fields := by rw [change_moov hn]; rfl, fresh := by rw [change_moov hn], behind := by rw [change_moov hn] }⟩
  · simp [Heads.old]
  · rw [put_none hn, serL_append, serL_cons, serL_nil, udtaKid_box]; simp [Heads.new]
  · simp [Heads.old]
  · intro h hh; exact absurd hh (by simp)
  · show q + b.size.len = _
    rw [size_len, Box.ser_length, hb]
    simp only [Heads.old, List.flatMap_nil, List.length_nil]
    omega
  · rfl
  · show ((udtaSize _).len : Int) = _
    rw [hw1, size_len]; simp
  · rfl
  · exact hw2

/-- The child is a `meta`. -/
def isMeta : Kid Meta → Prop
  | .node _ _ => True
  | .raw _ => False

theorem metaAt_none {k : Kid Meta} (h : ¬ isMeta k) (q : Nat) :
    kidAt (Kid.box (cc 'm' 'e' 't' 'a') Meta.ser) metaB q k = none := by
  cases k with
  | node ext m => exact absurd trivial h
  | raw b => rfl

theorem udtaPut_none {atoms} {u : Udta} (h : ∀ k ∈ u, ¬ isMeta k) : u.put atoms = u ++ [metaKid (newMeta atoms)] := by
  rw [Udta.put, updLast_none]
  · rfl
  · intro k hk
    cases k with
    | node ext m => exact absurd trivial (h _ hk)
    | raw b => rfl

theorem udtaPut_split {atoms} {A B : List (Kid Meta)} {ext mt} (hB : ∀ x ∈ B, ¬ isMeta x) :
    Udta.put atoms (A ++ .node ext mt :: B) = A ++ .node ext (mt.put atoms) :: B := by
  rw [Udta.put, updLast_split (ys := [.node ext (mt.put atoms)]) rfl]
  · simp
  · intro k hk
    cases k with
    | node ext m => exact absurd trivial (hB _ hk)
    | raw b => rfl

theorem metaPut_none {atoms} {m : Meta} (h : ∀ k ∈ m.kids, ¬ k.fc = cc 'i' 'l' 's' 't') :
    m.put atoms = ⟨m.flags, m.kids ++ newKids m atoms⟩ := by
  rw [Meta.put, updLast_none (fun k hk => if_neg (h k hk))]; rfl

theorem metaPut_split {atoms} {m : Meta} {A B : List Box} {k : Box} (hm : m.kids = A ++ k :: B) (hk : k.fc = cc 'i' 'l' 's' 't')
    (hB : ∀ x ∈ B, ¬ x.fc = cc 'i' 'l' 's' 't') : m.put atoms = ⟨m.flags, A ++ newKids m atoms ++ B⟩ := by
  rw [Meta.put]
  rw [show updLast _ m.kids = some (A ++ newKids m atoms ++ B) by
    rw [hm]; exact updLast_split (by rw [if_pos hk, ← hm]; rfl) (fun x hx => if_neg (hB x hx))]
  rfl

theorem mapTrak_udta (g ext u) : MoovKid.mapTrak g (.udta ext u) = .udta ext u := rfl

theorem change_newMeta {u : Udta} {atoms : List AtomData} (hn : ∀ k ∈ u, ¬ isMeta k) :
    u.change atoms = ⟨0, (mkBox (cc 'm' 'e' 't' 'a') (newMeta atoms).ser).ser, []⟩ := by
  rw [Udta.change, lastOf_none]
  intro k hk
  cases k with
  | node ext m => exact absurd trivial (hn _ hk)
  | raw b => rfl

theorem change_meta {A B : List (Kid Meta)} {ext : Bool} {m : Meta} {atoms : List AtomData} (hB : ∀ k ∈ B, ¬ isMeta k) :
    Udta.change atoms (A ++ .node ext m :: B) =
      ⟨fieldLen ext + (m.change atoms).fields, (m.change atoms).fresh, (m.change atoms).behind ++ serL (Kid.box (cc 'm' 'e' 't' 'a') Meta.ser) B⟩ := by
  rw [Udta.change, lastOf_split (sel := metaOf) (b := (ext, m)) rfl]
  intro k hk
  cases k with
  | node ext m => exact absurd trivial (hB _ hk)
  | raw b => rfl

theorem behind_none {m : Meta} {atoms : List AtomData} (h : ∀ k ∈ m.kids, ¬ k.fc = cc 'i' 'l' 's' 't') : (m.change atoms).behind = [] := by
  simp only [Meta.change]
  rw [lastOf_none (sel := Box.sel (cc 'i' 'l' 's' 't')) fun k hk => if_neg (h k hk)]

theorem behind_split {m : Meta} {atoms : List AtomData} {A B : List Box} {k : Box} (hm : m.kids = A ++ k :: B)
    (hk : k.fc = cc 'i' 'l' 's' 't') (hB : ∀ x ∈ B, ¬ x.fc = cc 'i' 'l' 's' 't') : (m.change atoms).behind = serL id B := by
  simp only [Meta.change]
  rw [hm, lastOf_split (sel := Box.sel (cc 'i' 'l' 's' 't')) (b := k.body) (if_pos hk) fun x hx => if_neg (hB x hx)]

/-- The last `udta` has no `meta`. -/
theorem place_udta {e q} {b : Box} {atoms : List AtomData} {A B : List MoovKid} {ext : Bool} {u : Udta}
    (hs : ∀ a ∈ atoms, Storable a) (hb : b.body = serL MoovKid.box (A ++ .udta ext u :: B))
    (h1 : q + b.ser.length < 2^62) (h2 : (serL MoovKid.box (Moov.put id atoms (A ++ .udta ext u :: B))).length < 2^62)
    (hB : ∀ k ∈ B, ¬ isUdta k) (hn : ∀ k ∈ u, ¬ isMeta k) : Nonempty (Place e q b (A ++ .udta ext u :: B) atoms) := by
  obtain ⟨hw1, hw2⟩ := writeMeta_emits hs
  have hbu : (MoovKid.udta ext u).box = ⟨ext, cc 'u' 'd' 't' 'a', u.ser⟩ := rfl
  have hbu' : (MoovKid.udta ext (u.put atoms)).box = ⟨ext, cc 'u' 'd' 't' 'a', (u.put atoms).ser⟩ := rfl
  have hus : (u.put atoms).ser = u.ser ++ (mkBox (cc 'm' 'e' 't' 'a') (newMeta atoms).ser).ser := by
    rw [udtaPut_none hn, Udta.ser, serL_append, serL_cons, serL_nil, metaKid_box]; simp [Udta.ser]
  rw [put_split hB, serL_append, serL_cons, hbu', Box.ser, hus] at h2
  simp only [List.length_append, Box.head_length] at h2
  have h1' := h1
  rw [Box.ser_length, hb, serL_append, serL_cons, hbu, Box.ser] at h1'
  simp only [List.length_append, Box.head_length] at h1'
  have hu : (moovB q b (A ++ .udta ext u :: B)).udta
      = some ⟨⟨q + b.headLen + (serL MoovKid.box A).length, (⟨ext, cc 'u' 'd' 't' 'a', u.ser⟩ : Box).size⟩, none⟩ := by
    refine lastAt_split (f := udtaAt) ?_ (fun k hk q => udtaAt_none (hB k hk) q)
    rw [udtaAt, udtaB, lastAt_none (fun k hk q => metaAt_none (hn k hk) q)]; rfl
  have hpl := mkPlan_udta (e := e) (atoms := atoms) hu
    (by rw [size_len, Box.ser_length]; simp only []; omega) (by rw [hw1, size_len]; omega)
  refine ⟨{ before := A, inner := [(⟨ext, cc 'u' 'd' 't' 'a', u.ser⟩, ⟨ext, cc 'u' 'd' 't' 'a', (u.put atoms).ser⟩, u.ser)],
            old := [], new := (mkBox (cc 'm' 'e' 't' 'a') (newMeta atoms).ser).ser, rest := serL MoovKid.box B,
            plan := _, sub := fun _ h => by simp [h], ser := ?_, put := fun g => ?_, mapped := fun g => ⟨serL MoovKid.box (B.map (MoovKid.mapTrak g)), ?_⟩, ok := ?_, plans := hpl, start := ?_,
            moved := ?_, diff := ?_, bounds := ?_, emits := ?_, small := .inl rfl, few := by simp,
            fields := by rw [change_udta hB, change_newMeta hn]; rfl, fresh := by rw [change_udta hB, change_newMeta hn],
            behind := by rw [change_udta hB, change_newMeta hn]; rfl }⟩
  · simp [Heads.old, serL_append, serL_cons, hbu, Box.ser]
  · rw [put_split hB]
    simp [Heads.new, serL_append, serL_cons, hbu', Box.ser, hus]
  · simp [Heads.old, serL_append, serL_cons, hbu, Box.ser, mapTrak_udta]
  · intro h hh
    rw [List.mem_singleton] at hh
    subst hh
    refine ⟨rfl, rfl, ?_, ?_, ?_⟩
    · simp only [hus, List.length_append, List.length_nil]; omega
    · simp only []; omega
    · simp only [hus, List.length_append]; omega
  · simp only [Heads.old, List.flatMap_cons, List.flatMap_nil, List.append_nil]
    rw [size_len, Box.ser]
  · rfl
  · show ((MetaW.size _).len : Int) = _
    rw [hw1, size_len]; simp
  · rfl
  · exact hw2

/-- The last `udta` has a `meta`. -/
theorem place_meta {e q} {b : Box} {atoms : List AtomData} {A B : List MoovKid} {ext : Bool} {A' B' : List (Kid Meta)} {ext' : Bool} {mt : Meta}
    (hs : ∀ a ∈ atoms, Storable a) (hb : b.body = serL MoovKid.box (A ++ .udta ext (A' ++ .node ext' mt :: B') :: B))
    (h1 : q + b.ser.length < 2^62) (h2 : (serL MoovKid.box (Moov.put id atoms (A ++ .udta ext (A' ++ .node ext' mt :: B') :: B))).length < 2^62)
    (hB : ∀ k ∈ B, ¬ isUdta k) (hB' : ∀ k ∈ B', ¬ isMeta k) (hf : mt.flags.length = 3) :
    Nonempty (Place e q b (A ++ .udta ext (A' ++ .node ext' mt :: B') :: B) atoms) := by
  generalize hbu0 : (⟨ext, cc 'u' 'd' 't' 'a', Udta.ser (A' ++ .node ext' mt :: B')⟩ : Box) = bu
  generalize hbu0' : (⟨ext, cc 'u' 'd' 't' 'a', Udta.ser (A' ++ .node ext' (mt.put atoms) :: B')⟩ : Box) = bu'
  generalize hbm0 : (⟨ext', cc 'm' 'e' 't' 'a', mt.ser⟩ : Box) = bm
  generalize hbm0' : (⟨ext', cc 'm' 'e' 't' 'a', (mt.put atoms).ser⟩ : Box) = bm'
  have hbu : (MoovKid.udta ext (A' ++ .node ext' mt :: B')).box = bu := by rw [← hbu0]; rfl
  have hbu' : (MoovKid.udta ext (A' ++ .node ext' (mt.put atoms) :: B')).box = bu' := by rw [← hbu0']; rfl
  have hbm : (Kid.node ext' mt).box (cc 'm' 'e' 't' 'a') Meta.ser = bm := by rw [← hbm0]; rfl
  have hbm' : (Kid.node ext' (mt.put atoms)).box (cc 'm' 'e' 't' 'a') Meta.ser = bm' := by rw [← hbm0']; rfl
  have hub : bu.body = serL (Kid.box (cc 'm' 'e' 't' 'a') Meta.ser) A' ++ bm.ser ++ serL (Kid.box (cc 'm' 'e' 't' 'a') Meta.ser) B' := by
    rw [← hbu0]; simp only [Udta.ser, serL_append, serL_cons, hbm, List.append_assoc]
  have hub' : bu'.body = serL (Kid.box (cc 'm' 'e' 't' 'a') Meta.ser) A' ++ bm'.ser ++ serL (Kid.box (cc 'm' 'e' 't' 'a') Meta.ser) B' := by
    rw [← hbu0']; simp only [Udta.ser, serL_append, serL_cons, hbm', List.append_assoc]
  have hputs : ∀ g, serL MoovKid.box (Moov.put g atoms (A ++ .udta ext (A' ++ .node ext' mt :: B') :: B))
      = serL MoovKid.box (A.map (MoovKid.mapTrak g)) ++ bu'.ser ++ serL MoovKid.box B := by
    intro g
    rw [put_split hB, udtaPut_split hB', serL_append, serL_cons, hbu', List.append_assoc]
  have hsers : serL MoovKid.box (A ++ .udta ext (A' ++ .node ext' mt :: B') :: B) = serL MoovKid.box A ++ bu.ser ++ serL MoovKid.box B := by
    rw [serL_append, serL_cons, hbu, List.append_assoc]
  have hmaps : ∀ g, serL MoovKid.box ((A ++ .udta ext (A' ++ .node ext' mt :: B') :: B).map (MoovKid.mapTrak g))
      = serL MoovKid.box (A.map (MoovKid.mapTrak g)) ++ bu.ser ++ serL MoovKid.box (B.map (MoovKid.mapTrak g)) := by
    intro g
    rw [List.map_append, List.map_cons, mapTrak_udta, serL_append, serL_cons, hbu, List.append_assoc]
  have hext : bu'.ext = bu.ext ∧ bu'.fc = bu.fc ∧ bm'.ext = bm.ext ∧ bm'.fc = bm.fc := by
    rw [← hbu0, ← hbu0', ← hbm0, ← hbm0']; exact ⟨rfl, rfl, rfl, rfl⟩
  have hmb : bm.body = mt.ser := by rw [← hbm0]
  have hmb' : bm'.body = (mt.put atoms).ser := by rw [← hbm0']
  rw [hputs] at h2
  have h1' := h1
  rw [Box.ser_length, hb, hsers] at h1'
  simp only [List.length_append, Box.ser_length] at h1' h2
  have hu : (moovB q b (A ++ .udta ext (A' ++ .node ext' mt :: B') :: B)).udta
      = some ⟨⟨q + b.headLen + (serL MoovKid.box A).length, bu.size⟩,
          some (metaB (q + b.headLen + (serL MoovKid.box A).length + bu.headLen + (serL (Kid.box (cc 'm' 'e' 't' 'a') Meta.ser) A').length) bm mt)⟩ := by
    refine lastAt_split (f := udtaAt) ?_ (fun k hk q => udtaAt_none (hB k hk) q)
    rw [udtaAt, udtaB, hbu, lastAt_split (b := metaB (q + b.headLen + (serL MoovKid.box A).length + bu.headLen + (serL (Kid.box (cc 'm' 'e' 't' 'a') Meta.ser) A').length) bm mt)
      (by rw [← hbm]; rfl) (fun k hk q => metaAt_none (hB' k hk) q)]
  generalize hsA : serL MoovKid.box A = sA at *
  generalize hsB : serL MoovKid.box B = sB at *
  generalize hsA' : serL (Kid.box (cc 'm' 'e' 't' 'a') Meta.ser) A' = sA' at *
  generalize hsB' : serL (Kid.box (cc 'm' 'e' 't' 'a') Meta.ser) B' = sB' at *
  have hmh : bm'.headLen = bm.headLen := by unfold Box.headLen; rw [hext.2.2.1]
  have huh : bu'.headLen = bu.headLen := by unfold Box.headLen; rw [hext.1]
  have hul : bu.body.length = sA'.length + (bm.headLen + bm.body.length) + sB'.length := by
    rw [hub]; simp only [List.length_append, Box.ser_length]
  have hul' : bu'.body.length = sA'.length + (bm.headLen + bm'.body.length) + sB'.length := by
    rw [hub']; simp only [List.length_append, Box.ser_length, hmh]
  rcases last_split (fun b : Box => b.fc = cc 'i' 'l' 's' 't') mt.kids with hk | ⟨A2, il, B2, hk, hil, hB2⟩
  · have hpm := metaPut_none (atoms := atoms) hk
    have hml : bm.body.length = 4 + (serL id mt.kids).length := by
      rw [hmb, Meta.ser]; simp [hf]; omega
    have hml' : bm'.body.length = 4 + (serL id mt.kids).length + (serL id (newKids mt atoms)).length := by
      rw [hmb', hpm, Meta.ser, serL_append]; simp [hf]; omega
    have hmB : metaB (q + b.headLen + sA.length + bu.headLen + sA'.length) bm mt
        = ⟨⟨q + b.headLen + sA.length + bu.headLen + sA'.length, bm.size⟩,
           lastAt id (leafAt HANDLER_REFERENCE) (q + b.headLen + sA.length + bu.headLen + sA'.length + bm.headLen + 4) mt.kids, none⟩ := by
      rw [metaB, lastAt_none (f := leafAt ITEM_LIST) (fun k hk' q => if_neg (hk k hk'))]
    rw [hmB] at hu
    have hpl := mkPlan_meta (e := e) (atoms := atoms) hu
      (by rw [size_len, Box.ser_length]; omega) (by rw [insertLen_eq hs]; omega)
    refine ⟨{ before := A, inner := [(bu, bu', sA'), (bm, bm', mt.ser)],
              old := [], new := serL id (newKids mt atoms), rest := sB' ++ sB,
              plan := _, sub := fun _ h => by simp [h], ser := ?_, put := fun g => ?_, mapped := fun g => ⟨sB' ++ serL MoovKid.box (B.map (MoovKid.mapTrak g)), ?_⟩, ok := ?_, plans := hpl, start := ?_,
              moved := ?_, diff := ?_, bounds := ?_, emits := ?_, small := .inl rfl, few := by simp,
              fields := by rw [change_udta hB, change_meta hB', ← hbu0, ← hbm0]; rfl, fresh := by rw [change_udta hB, change_meta hB']; rfl,
              behind := by rw [change_udta hB, change_meta hB', hsB, hsB', behind_none hk]; rfl }⟩
    · rw [hsers, hsA, Box.ser, hub, Box.ser, hmb]; simp [Heads.old]
    · rw [hputs, Box.ser, hub', Box.ser, hmb', hpm]
      simp [Heads.new, Meta.ser, serL_append]
    · rw [hmaps, Box.ser, hub, Box.ser, hmb]; simp [Heads.old]
    · intro h hh
      simp only [List.mem_cons, List.not_mem_nil, or_false] at hh
      rcases hh with rfl | rfl
      · refine ⟨hext.1, hext.2.1, ?_, ?_, ?_⟩ <;> simp only [List.length_nil] <;> omega
      · refine ⟨hext.2.2.1, hext.2.2.2, ?_, ?_, ?_⟩ <;> simp only [List.length_nil] <;> omega
    · simp only [Heads.old, List.flatMap_cons, List.flatMap_nil, List.append_nil, List.length_append, Box.head_length, ← hmb, hsA]
      rw [size_len, Box.ser_length]; omega
    · rfl
    · show (insertLen _ _ : Int) = _
      rw [insertLen_eq hs]; simp
    · simp only [hsA, Heads.bounds]; rfl
    · exact insert_emits (p := q + b.headLen + sA.length + bu.headLen + sA'.length + bm.headLen + 4) hs rfl
  · have hpm := metaPut_split (atoms := atoms) hk hil hB2
    have hml : bm.body.length = 4 + (serL id A2).length + (il.headLen + il.body.length) + (serL id B2).length := by
      rw [hmb, Meta.ser, hk, serL_append, serL_cons]
      simp only [List.cons_append, List.length_cons, List.length_append, hf, id, Box.ser_length]; omega
    have hml' : bm'.body.length = 4 + (serL id A2).length + (serL id (newKids mt atoms)).length + (serL id B2).length := by
      rw [hmb', hpm, Meta.ser, serL_append, serL_append]
      simp only [List.cons_append, List.length_cons, List.length_append, hf]; omega
    have hmB : metaB (q + b.headLen + sA.length + bu.headLen + sA'.length) bm mt
        = ⟨⟨q + b.headLen + sA.length + bu.headLen + sA'.length, bm.size⟩,
           lastAt id (leafAt HANDLER_REFERENCE) (q + b.headLen + sA.length + bu.headLen + sA'.length + bm.headLen + 4) mt.kids,
           some ⟨q + b.headLen + sA.length + bu.headLen + sA'.length + bm.headLen + 4 + (serL id A2).length, il.size⟩⟩ := by
      rw [metaB]
      congr 1
      rw [hk]
      exact lastAt_split (f := leafAt ITEM_LIST) (if_pos hil) (fun x hx q => if_neg (hB2 x hx))
    rw [hmB] at hu
    have hpl := mkPlan_ilst (e := e) (atoms := atoms) hu
      (by rw [size_len, Box.ser_length]; omega) (by rw [insertLen_eq hs]; omega)
    refine ⟨{ before := A, inner := [(bu, bu', sA'), (bm, bm', (0 :: mt.flags) ++ serL id A2)],
              old := il.ser, new := serL id (newKids mt atoms), rest := serL id B2 ++ sB' ++ sB,
              plan := _, sub := fun _ h => by simp [h], ser := ?_, put := fun g => ?_, mapped := fun g => ⟨il.ser ++ serL id B2 ++ sB' ++ serL MoovKid.box (B.map (MoovKid.mapTrak g)), ?_⟩, ok := ?_, plans := hpl, start := ?_,
              moved := ?_, diff := ?_, bounds := ?_, emits := ?_, small := .inr newKids_length, few := by simp,
              fields := by rw [change_udta hB, change_meta hB', ← hbu0, ← hbm0]; rfl, fresh := by rw [change_udta hB, change_meta hB']; rfl,
              behind := by
                rw [change_udta hB, change_meta hB', hsB, hsB', behind_split hk hil hB2] }⟩
    · rw [hsers, hsA, show bu.ser = bu.head ++ bu.body from rfl, hub, show bm.ser = bm.head ++ bm.body from rfl, hmb, Meta.ser, hk]; simp [Heads.old, serL_append, serL_cons]
    · rw [hputs, Box.ser, hub', show bm'.ser = bm'.head ++ bm'.body from rfl, hmb', hpm]
      simp [Heads.new, Meta.ser, serL_append]
    · rw [hmaps, show bu.ser = bu.head ++ bu.body from rfl, hub, show bm.ser = bm.head ++ bm.body from rfl, hmb, Meta.ser, hk]; simp [Heads.old, serL_append, serL_cons]
    · intro h hh
      simp only [List.mem_cons, List.not_mem_nil, or_false] at hh
      rcases hh with rfl | rfl
      · refine ⟨hext.1, hext.2.1, ?_, ?_, ?_⟩ <;> simp only [Box.ser_length] <;> omega
      · refine ⟨hext.2.2.1, hext.2.2.2, ?_, ?_, ?_⟩ <;> simp only [Box.ser_length] <;> omega
    · simp only [Heads.old, List.flatMap_cons, List.flatMap_nil, List.append_nil, List.length_append, Box.head_length, hsA,
        List.cons_append, List.length_cons, hf]
      omega
    · show _ + il.size.len = _ + _
      rw [size_len]
    · show (insertLen _ _ : Int) - il.size.len = _
      rw [insertLen_eq hs, size_len]
    · simp only [hsA, Heads.bounds]; rfl
    · exact insert_emits (p := q + b.headLen + sA.length + bu.headLen + sA'.length + bm.headLen + 4) hs rfl

theorem exists_place {e q} {b : Box} {m : Spec.Moov} {atoms : List AtomData} (hs : ∀ a ∈ atoms, Storable a) (hb : b.body = serL MoovKid.box m)
    (h1 : q + b.ser.length < 2^62) (h2 : (serL MoovKid.box (m.put id atoms)).length < 2^62) (hw : m.WF) : Nonempty (Place e q b m atoms) := by
  rcases last_split isUdta m with h | ⟨A, k, B, rfl, hk, hB⟩
  · exact place_moov hs hb h1 h2 h
  · cases k with
    | udta ext u =>
      rcases last_split isMeta u with h | ⟨A', k, B', rfl, hk, hB'⟩
      · exact place_udta hs hb h1 h2 hB h
      · cases k with
        | node ext' mt =>
          refine place_meta hs hb h1 h2 hB hB' ?_
          have h := (hw (.udta ext (A' ++ .node ext' mt :: B')) (by simp)).2
          exact (h (.node ext' mt) (by simp)).2.1
        | raw b => exact absurd hk id
    | _ => exact absurd hk id

/-! ### The file -/

theorem mapTrak_id (ks : List MoovKid) : ks.map (MoovKid.mapTrak id) = ks := by
  rw [show MoovKid.mapTrak id = id from funext fun k => by cases k <;> rfl, List.map_id]

theorem lastAt_leaf_pos {fc : Fourcc} {bd : AtomBounds} : ∀ (ks : List Box) (p : Nat), lastAt id (leafAt fc) p ks = some bd →
    p ≤ bd.pos ∧ bd.pos < p + (serL id ks).length := by
  intro ks
  induction ks with
  | nil => intro p h; exact absurd h (by simp [lastAt])
  | cons k ks ih =>
    intro p h
    have hk : 0 < k.ser.length := by rw [Box.ser_length]; unfold Box.headLen; split <;> omega
    have hl : (serL id (k :: ks)).length = k.ser.length + (serL id ks).length := by rw [serL_cons, List.length_append]; rfl
    rw [lastAt, Option.or_eq_some_iff] at h
    rcases h with h | ⟨_, h⟩
    · have := ih _ h
      simp only [id] at this
      omega
    · rw [leafAt] at h
      split at h
      · injection h with h; subst h; simp only []; omega
      · exact absurd h (by simp)

/-- The comparison of positions decides whether there is media data behind the movie atom. -/
theorem mdatPos_gt (f : File) (p : Nat) : f.mdatPos p > f.moovPos p ↔ f.MediaBehind := by
  have hk : 0 < f.moovBox.ser.length := by rw [Box.ser_length]; unfold Box.headLen; split <;> omega
  have hn := lastAt_leaf_isNone MEDIA_DATA (f.moovPos p + f.moovBox.ser.length) f.post
  unfold File.mdatPos
  cases h : lastAt id (leafAt MEDIA_DATA) (f.moovPos p + f.moovBox.ser.length) f.post with
  | some bd =>
    rw [h] at hn
    have h1 := lastAt_leaf_pos _ _ h
    have h2 : ∃ b ∈ f.post, b.fc = MEDIA_DATA := by
      apply Decidable.byContradiction
      intro hc
      rw [decide_eq_false hc] at hn
      exact absurd hn (by simp)
    simp only [Option.some_or]
    exact ⟨fun _ => h2, fun _ => by omega⟩
  | none =>
    rw [h] at hn
    have h2 : ¬ ∃ b ∈ f.post, b.fc = MEDIA_DATA := by
      intro hc
      rw [decide_eq_true hc] at hn
      exact absurd hn (by simp)
    refine ⟨fun hgt => ?_, fun h => absurd h h2⟩
    exfalso
    rw [Option.none_or] at hgt
    cases h' : lastAt id (leafAt MEDIA_DATA) (p + f.ftypBox.ser.length) f.pre with
    | none => rw [h'] at hgt; simp only [] at hgt; omega
    | some bd =>
      rw [h'] at hgt
      have h1 := lastAt_leaf_pos _ _ h'
      unfold File.moovPos at hgt
      simp only [] at hgt
      omega

theorem mapLast_length {κ} {box : κ → Box} {f : κ → Option κ} (ks : List κ)
    (h : ∀ k, IsLast f ks k → ∀ k', f k = some k' → (box k').ser.length = (box k).ser.length) :
    (serL box (mapLast f ks)).length = (serL box ks).length := by
  rcases last_split (fun k => f k ≠ none) ks with hn | ⟨A, k, B, rfl, hk, hB⟩
  · rw [mapLast, updLast_none (fun k hk => by rw [Decidable.not_not.mp (hn k hk)]; rfl)]; rfl
  · obtain ⟨k', hk'⟩ := Option.ne_none_iff_exists'.mp hk
    rw [mapLast, updLast_split (ys := [k']) (by rw [hk']; rfl)
      (fun x hx => by rw [Decidable.not_not.mp (hB x hx)]; rfl)]
    have := h k ⟨A, B, rfl, fun x hx => Decidable.not_not.mp (hB x hx)⟩ k' hk'
    simp only [Option.getD_some, serL_append, serL_cons, serL_nil, List.length_append, List.length_nil]
    omega

theorem table_length {w : Nat} (hw : w = 4 ∨ w = 8) {f : Nat → Nat} {b : Box} (h : TableWF w b.body) :
    (⟨b.ext, b.fc, mapOffsets w f b.body⟩ : Box).ser.length = b.ser.length := by
  rw [Box.ser_length, Box.ser_length, mapOffsets_length hw h]; rfl

theorem node_length {α} {fc : Fourcc} {ser : α → Bytes} {f : α → α} {ks : List (Kid α)}
    (h : ∀ a, (ks.filterMap Kid.sel).getLast? = some a → (ser (f a)).length = (ser a).length) :
    (serL (Kid.box fc ser) (mapLast (Kid.mapNode f) ks)).length = (serL (Kid.box fc ser) ks).length := by
  refine mapLast_length ks fun k hk k' hk' => ?_
  cases k with
  | raw b => exact absurd hk' (by simp [Kid.mapNode])
  | node ext a =>
    injection hk' with hk'
    subst hk'
    rw [Box.ser_length, Box.ser_length]
    show _ + (ser (f a)).length = _ + (ser a).length
    rw [h a hk.kid]; rfl

theorem stbl_shift_length {d : Int} {s : Stbl} (h : s.Tables) : (s.shift d).ser.length = s.ser.length := by
  unfold Stbl.shift Stbl.ser
  rw [mapLast_length, mapLast_length]
  · intro k hk k' hk'
    split at hk'
    · injection hk' with hk'
      subst hk'
      rename_i hfc
      exact table_length (.inl rfl) (h.1 _ (hk.table (φ := fun b => ⟨b.ext, b.fc, mapOffsets 4 (shiftBy d) b.body⟩) hfc))
    · exact absurd hk' (by simp)
  · intro k hk k' hk'
    split at hk'
    · injection hk' with hk'
      subst hk'
      rename_i hfc
      have := hk.table (φ := fun b => ⟨b.ext, b.fc, mapOffsets 8 (shiftBy d) b.body⟩) hfc
      rw [box_sel_mapTable (by decide) s] at this
      exact table_length (.inr rfl) (h.2 _ this)
    · exact absurd hk' (by simp)

/-- The chunk offset tables of tracks keep their length. -/
theorem trak_shift_length {d : Int} {t : Spec.Trak} (h : t.Tables) : (t.shift d).ser.length = t.ser.length :=
  node_length fun a ha => node_length fun a' ha' => node_length fun a'' ha'' => stbl_shift_length (h a ha a' ha' a'' ha'')

theorem shift_length {d : Int} (ks : List MoovKid) (h : ∀ ext t, MoovKid.trak ext t ∈ ks → t.Tables) :
    (serL MoovKid.box (ks.map (MoovKid.mapTrak (Spec.Trak.shift d)))).length = (serL MoovKid.box ks).length := by
  induction ks with
  | nil => rfl
  | cons k ks ih =>
    have hk : (k.mapTrak (Spec.Trak.shift d)).box.ser.length = k.box.ser.length := by
      cases k with
      | trak ext t =>
        rw [Box.ser_length, Box.ser_length]
        show _ + (Spec.Trak.shift d t).ser.length = _ + t.ser.length
        rw [trak_shift_length (h ext t (by simp))]; rfl
      | _ => rfl
    have hi := ih (fun ext t h' => h ext t (by simp [h']))
    rw [List.map_cons, serL_cons, serL_cons, List.length_append, List.length_append, hk, hi]

/-- Reading the data to be moved. -/
theorem preparePhase_of {e : Env} {F : Bytes} {p mp c : Nat} {moov : MoovBounds} {atoms : List AtomData} (hF : Fit e F)
    (hfind : findTop e F p = .ok ((mp, moov), c)) {plan : Plan}
    (hp : mkPlan moov atoms e = .ok plan) (hm : plan.movedDataStart ≤ F.length) :
    ∃ c, preparePhase atoms e F p = .ok ((mp, moov, plan, F.length, F.drop plan.movedDataStart), c) := by
  have h1 := hF.pos
  have h2 := hF.len
  refine ⟨max plan.movedDataStart F.length, ?_⟩
  have hsub : subU F.length plan.movedDataStart e = .ok (F.length - plan.movedDataStart) := by
    rw [subU, if_pos hm]
  have hal : allocU8 (F.length - plan.movedDataStart) e = .ok () := by rw [allocU8, if_neg (by omega)]
  have hse : seekStart plan.movedDataStart e F F.length = .ok ((), plan.movedDataStart) := by
    rw [seekStart, if_pos (by omega)]
  unfold preparePhase
  rw [P.bind_ok hfind]
  simp only []
  rw [P.bind_ok (E.p_ok hp _ _), P.bind_ok (a := F.length) (p' := F.length) rfl,
    P.bind_ok (E.p_ok hsub _ _), P.bind_ok (E.p_ok hal _ _), P.bind_ok hse]
  rfl

theorem preparePhase_at {e : Env} {f : File} {X : Bytes} {atoms : List AtomData} (hF : Fit e (X ++ f.ser)) (hw : f.WF) {plan : Plan}
    (hp : mkPlan (moovB (f.moovPos X.length) f.moovBox f.moov) atoms e = .ok plan) (hm : plan.movedDataStart ≤ (X ++ f.ser).length) :
    ∃ c, preparePhase atoms e (X ++ f.ser) X.length = .ok ((f.mdatPos X.length, moovB (f.moovPos X.length) f.moovBox f.moov, plan,
      (X ++ f.ser).length, (X ++ f.ser).drop plan.movedDataStart), c) :=
  preparePhase_of hF (findTop_at hF hw rfl) hp hm

/-- Writing to a file of which the search finds the movie atom, whatever the bytes `T` behind the movie atom are. All operations
on the file are at or behind the movie atom, and the file is the result of these operations. -/
theorem writeTagTo_tail {e : Env} {f : File} {X T F : Bytes} {atoms : List AtomData} {c : Nat}
    (hFdef : F = X ++ f.ftypBox.ser ++ serL id f.pre ++ f.moovBox.ser ++ T) (hF : Fit e F) (hw : f.moov.WF)
    (hfind : findTop e F X.length = .ok ((f.mdatPos X.length, moovB (f.moovPos X.length) f.moovBox f.moov), c))
    (hs : ∀ a ∈ atoms, Storable a) (ho : F.length < 2^62)
    (hn : (X ++ f.ftypBox.ser ++ serL id f.pre ++ (f.put atoms).moovBox.ser ++ T).length < 2^62)
    (hmax : (X ++ f.ftypBox.ser ++ serL id f.pre ++ (f.put atoms).moovBox.ser ++ T).length ≤ e.maxPos)
    (ht : f.MediaBehind → f.moov.Tables) :
    ∃ s, writeTagTo e F X.length atoms = (.ok (), s) ∧
      s.file = X ++ f.ftypBox.ser ++ serL id f.pre ++ (f.put atoms).moovBox.ser ++ T ∧ s.buf = [] ∧
      s.cur = s.file.length ∧ (∀ op ∈ s.trace, f.moovPos X.length ≤ op.lo) ∧ s.trace.foldl Op.apply F = s.file := by
  generalize hg : (if f.MediaBehind then Spec.Trak.shift (f.growth atoms) else id) = g
  have hput : (f.put atoms).moovBox = ⟨f.moovExt, cc 'm' 'o' 'o' 'v', serL MoovKid.box (f.moov.put g atoms)⟩ := by
    rw [← hg]; rfl
  have hgl : ∀ ks : List MoovKid, (∀ k ∈ ks, k ∈ f.moov) →
      (serL MoovKid.box (ks.map (MoovKid.mapTrak g))).length = (serL MoovKid.box ks).length := by
    intro ks hks
    rw [← hg]
    split
    · rename_i h
      exact shift_length ks (fun ext t hk => ht h ext t (hks _ hk))
    · rw [mapTrak_id]
  have hgput : (serL MoovKid.box (f.moov.put g atoms)).length = (serL MoovKid.box (f.moov.put id atoms)).length := by
    rcases last_split isUdta f.moov with h | ⟨A, k, B, hm, hk, hB⟩
    · rw [put_none h, put_none h, serL_append, serL_append, List.length_append, List.length_append, mapTrak_id, hgl _ (fun _ h => h)]
    · cases k with
      | udta ext u =>
        rw [hm, put_split hB, put_split hB, serL_append, serL_append, List.length_append, List.length_append, mapTrak_id,
          hgl A (fun k hk => by rw [hm]; simp [hk])]
      | _ => exact absurd hk id
  have hmser : f.moovBox.body = serL MoovKid.box f.moov := rfl
  generalize hP : X ++ f.ftypBox.ser ++ serL id f.pre = P
  have hPl : f.moovPos X.length = P.length := by rw [← hP]; simp only [List.length_append]; rfl
  have hFser : F = P ++ f.moovBox.ser ++ T := by
    rw [← hP]; exact hFdef
  rw [hP] at hn hmax
  generalize hN : P ++ (f.put atoms).moovBox.ser ++ T = N at hn hmax ⊢
  have hNser : N = P ++ (⟨f.moovExt, cc 'm' 'o' 'o' 'v', serL MoovKid.box (f.moov.put g atoms)⟩ : Box).ser ++ T := by
    rw [← hN, hput]
  have ho' := ho
  have hn' := hn
  rw [hFser] at ho'
  rw [hNser] at hn'
  simp only [List.length_append, Box.ser_length] at ho' hn'
  obtain ⟨pl⟩ := exists_place (e := e) (q := f.moovPos X.length) (b := f.moovBox) (m := f.moov) hs hmser
    (by rw [hPl, Box.ser_length]; omega) (by omega) hw
  have hsl : (serL MoovKid.box f.moov).length = (serL MoovKid.box pl.before).length + pl.inner.old.length + pl.old.length + pl.rest.length := by
    rw [pl.ser]; simp only [List.length_append]
  have hil := Heads.length pl.ok
  have hpl' : (serL MoovKid.box (f.moov.put g atoms)).length = (serL MoovKid.box pl.before).length + pl.inner.old.length + pl.new.length + pl.rest.length := by
    rw [pl.put g]; simp only [List.length_append]; rw [hgl _ pl.sub, hil]
  have hgrow : f.growth atoms = (pl.new.length : Int) - pl.old.length := by
    have h1 : (f.moov.put id atoms).ser.length = (serL MoovKid.box (f.moov.put g atoms)).length := hgput.symm
    have h2 : f.moov.ser.length = (serL MoovKid.box f.moov).length := rfl
    rw [File.growth, h1, h2]; omega
  have hmh : (⟨f.moovExt, cc 'm' 'o' 'o' 'v', serL MoovKid.box (f.moov.put g atoms)⟩ : Box).headLen = f.moovBox.headLen := rfl
  rw [hmh] at hn'
  rw [hmser] at ho'
  obtain ⟨R, hR⟩ := pl.mapped g
  have hRl : R.length = pl.old.length + pl.rest.length := by
    have := congrArg List.length hR
    rw [hgl _ (fun _ h => h), hsl, List.length_append, List.length_append, hgl _ pl.sub] at this
    omega
  have hst := pl.start
  have hmv := pl.moved
  have hdf := pl.diff
  have hbd := pl.bounds
  obtain ⟨c0, hprep⟩ := preparePhase_of (atoms := atoms) hF hfind pl.plans
    (by rw [hFser]; simp only [List.length_append, Box.ser_length, hmser]; omega)
  have hdrop : F.drop pl.plan.movedDataStart = pl.rest ++ T := by
    rw [hFser, Box.ser, hmser, pl.ser]
    have : P ++ (f.moovBox.head ++ (serL MoovKid.box pl.before ++ pl.inner.old ++ pl.old ++ pl.rest)) ++ T
        = (P ++ f.moovBox.head ++ serL MoovKid.box pl.before ++ pl.inner.old ++ pl.old) ++ (pl.rest ++ T) := by
      simp only [List.append_assoc]
    rw [this]
    apply List.drop_left'
    simp only [List.length_append, Box.head_length]
    omega
  rw [hdrop] at hprep
  -- the tables
  have htab : ∃ s1 c1, (if f.mdatPos X.length > (moovB (f.moovPos X.length) f.moovBox f.moov).bounds.pos
        then wAll (patchStbl pl.plan.lenDiff) (stblAtoms (moovB (f.moovPos X.length) f.moovBox f.moov)) else pure () : W Unit) e
        { file := F, cur := e.rcur 0 } = (.ok (), s1) ∧
      Sees F (f.moovPos X.length) s1 (P ++ f.moovBox.head ++ serL MoovKid.box (f.moov.map (MoovKid.mapTrak g)) ++ T) c1 := by
    have h0 : Sees F (f.moovPos X.length) { file := F, cur := e.rcur 0 }
        (P ++ f.moovBox.head ++ serL MoovKid.box f.moov ++ T) (e.rcur 0) := by
      refine ⟨?_, rfl, ?_, rfl⟩
      · rw [← show F = P ++ f.moovBox.head ++ serL MoovKid.box f.moov ++ T by
          rw [hFser, Box.ser, hmser]; simp only [List.append_assoc]]
        rfl
      · intro op hop; exact absurd hop (by simp [WSt.flushBuf, WSt.sysWrite])
    by_cases hmb : f.MediaBehind
    · have hgt : f.mdatPos X.length > (moovB (f.moovPos X.length) f.moovBox f.moov).bounds.pos := (mdatPos_gt f X.length).mpr hmb
      rw [if_pos hmb] at hg
      rw [if_pos hgt, stblAtoms_eq, hdf, ← hgrow, ← hg]
      have hmp := moov_patch (e := e) (F0 := F) (m := f.moovPos X.length) (d := f.growth atoms)
        (by rw [hgrow]; omega) f.moov (f.moovPos X.length + f.moovBox.headLen) (by omega) (ht hmb)
      obtain ⟨s1, c1, g1, k1, _⟩ := hmp.2 _ (P ++ f.moovBox.head) (T) (e.rcur 0)
        (by rw [hPl, List.length_append, Box.head_length])
        (by simp only [List.length_append, Box.head_length]; omega)
        (by have := hF.pos; rw [hFser] at this; simp only [List.length_append, Box.head_length, Box.ser_length, hmser] at this ⊢; omega)
        rfl h0
      exact ⟨s1, c1, g1, k1⟩
    · have hgt : ¬ f.mdatPos X.length > (moovB (f.moovPos X.length) f.moovBox f.moov).bounds.pos := fun h => hmb ((mdatPos_gt f X.length).mp h)
      rw [if_neg hmb] at hg
      rw [if_neg hgt, ← hg, mapTrak_id]
      exact ⟨_, _, rfl, h0⟩
  obtain ⟨s1, c1, g1, k1⟩ := htab
  -- the remaining writing
  generalize hnb : (⟨f.moovExt, cc 'm' 'o' 'o' 'v', serL MoovKid.box (f.moov.put g atoms)⟩ : Box) = nb at *
  have hnbb : nb.body = serL MoovKid.box (f.moov.put g atoms) := by rw [← hnb]
  have hnbl : nb.body.length = (serL MoovKid.box (f.moov.put g atoms)).length := by rw [← hnb]
  have hold : Heads.old ((f.moovBox, nb, serL MoovKid.box (pl.before.map (MoovKid.mapTrak g))) :: pl.inner)
      = f.moovBox.head ++ serL MoovKid.box (pl.before.map (MoovKid.mapTrak g)) ++ pl.inner.old := by
    unfold Heads.old; rw [List.flatMap_cons]
  have hnew : Heads.new ((f.moovBox, nb, serL MoovKid.box (pl.before.map (MoovKid.mapTrak g))) :: pl.inner)
      = nb.head ++ serL MoovKid.box (pl.before.map (MoovKid.mapTrak g)) ++ pl.inner.new := by
    unfold Heads.new; rw [List.flatMap_cons]
  have hoktop : Heads.OK pl.plan.lenDiff ((f.moovBox, nb, serL MoovKid.box (pl.before.map (MoovKid.mapTrak g))) :: pl.inner) := by
    intro h hh
    rcases List.mem_cons.mp hh with rfl | hh
    · refine ⟨?_, ?_, ?_, ?_, ?_⟩
      · rw [← hnb]; rfl
      · rw [← hnb]; rfl
      · simp only [hnbl, hmser]; omega
      · simp only [hmser]; omega
      · simp only [hnbl]; omega
    · rw [hdf]; exact pl.ok h hh
  have hbl := hgl _ pl.sub
  obtain ⟨s2, g2, b2, k2⟩ := writePhase_sees (e := e) (F0 := F) (m := f.moovPos X.length) (atoms := atoms)
    (oldLen := F.length) (plan := pl.plan) P
    ((f.moovBox, nb, serL MoovKid.box (pl.before.map (MoovKid.mapTrak g))) :: pl.inner) (R ++ T) pl.new (pl.rest ++ T)
    g1 (by
      rw [hold]
      rw [hR] at k1
      simpa only [List.append_assoc] using k1)
    (by simp) hoktop (by omega)
    (by rw [← hPl, hbd, Heads.bounds, hbl])
    pl.emits
    (by rw [hold]; simp only [List.length_append, Box.head_length]; omega)
    (by rw [hold]; simp only [List.length_append, Box.head_length]; omega)
    (by rw [hold, hFser]; simp only [List.length_append, Box.head_length, Box.ser_length, hmser]; omega)
    (by rw [hNser] at hmax; rw [hold]; simp only [List.length_append, Box.head_length, Box.ser_length] at hmax ⊢; omega)
    (by rw [hold]; simp only [List.length_append, Box.head_length]; omega)
    ho (by omega)
  have hfin : P ++ Heads.new ((f.moovBox, nb, serL MoovKid.box (pl.before.map (MoovKid.mapTrak g))) :: pl.inner) ++ pl.new ++ (pl.rest ++ T)
      = N := by
    rw [hnew, hNser, Box.ser, hnbb, pl.put g]
    simp only [List.append_assoc]
  rw [hfin] at k2
  refine ⟨s2.flushBuf, ?_, k2.file, ?_, ?_, k2.low, ?_⟩
  · rw [writeTagTo, hprep]
    simp only []
    rw [g2]
  · rfl
  · rw [flushBuf_cur, k2.cur, k2.file]
  · exact k2.flush_replay

/-- Writing to a well-formed file succeeds and yields the file of the specification. All operations on the file are at or
behind the movie atom, and the file is the result of these operations. -/
theorem writeTagTo_spec {e : Env} {f : File} {X : Bytes} {atoms : List AtomData} (hF : Fit e (X ++ f.ser)) (hw : f.WF)
    (hs : ∀ a ∈ atoms, Storable a) (ho : (X ++ f.ser).length < 2^62) (hn : (X ++ (f.put atoms).ser).length < 2^62)
    (hmax : (X ++ (f.put atoms).ser).length ≤ e.maxPos) (ht : f.MediaBehind → f.moov.Tables) :
    ∃ s, writeTagTo e (X ++ f.ser) X.length atoms = (.ok (), s) ∧ s.file = X ++ (f.put atoms).ser ∧ s.buf = [] ∧
      s.cur = s.file.length ∧ (∀ op ∈ s.trace, f.moovPos X.length ≤ op.lo) ∧ s.trace.foldl Op.apply (X ++ f.ser) = s.file := by
  have hN : X ++ (f.put atoms).ser = X ++ f.ftypBox.ser ++ serL id f.pre ++ (f.put atoms).moovBox.ser ++ serL id f.post := by
    simp only [File.ser, List.append_assoc]; rfl
  rw [hN] at hn hmax ⊢
  exact writeTagTo_tail (by simp only [File.ser, List.append_assoc]) hF hw.2.2.1 (findTop_at hF hw rfl) hs ho hn hmax ht

end Mp4
