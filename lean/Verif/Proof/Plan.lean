import Verif.Proof.Patch
/-
The plan of `write_tag_to`, and the writing phase in terms of the bytes around the place of the item list.
-/
namespace Mp4
open Spec

theorem E.bind_ok {α β} {m : E α} {f : α → E β} {e a} (h : m e = .ok a) : (m >>= f) e = f a e := by
  show (m e).bind _ = _
  rw [h]; rfl

theorem W.bind_congr {α β} {m : W α} {f g : α → W β} {e s} (h : ∀ a s, f a e s = g a e s) : (m >>= f) e s = (m >>= g) e s := by
  show W.bind m f e s = W.bind m g e s
  unfold W.bind
  split
  · exact h _ _
  all_goals rfl

theorem end_ok {e : Env} {p : Nat} {s : Size} (h : p + s.len < 2^64) : (⟨p, s⟩ : AtomBounds).end_ e = .ok (p + s.len) := by
  rw [AtomBounds.end_, addU, if_pos h]

/-- The length of the atoms to insert if `meta` exists. -/
def insertLen (hd : Option AtomBounds) (atoms : List AtomData) : Nat :=
  lenOrZero hdlrSize (if hd.isNone then some metaHdlr else none) + (ilstSize atoms).len

theorem mkPlan_ilst {mb : MoovBounds} {atoms : List AtomData} {e : Env} {bu bm : AtomBounds} {hd : Option AtomBounds} {qi : Nat} {si : Size}
    (h : mb.udta = some ⟨bu, some ⟨bm, hd, some ⟨qi, si⟩⟩⟩) (h1 : qi + si.len < 2^62) (h2 : insertLen hd atoms < 2^62) :
    mkPlan mb atoms e = .ok ⟨qi, qi + si.len, (insertLen hd atoms : Int) - si.len, [bm, bu, mb.bounds], none, none,
      if hd.isNone then some metaHdlr else none⟩ := by
  have hsub : subI 0 (asI64 si.len) e = .ok (-(si.len : Int)) := by
    rw [asI64_lt (by omega), subI, if_pos (by omega)]; congr 1; omega
  have hadd : addI (-(si.len : Int)) (asI64 (insertLen hd atoms)) e = .ok ((insertLen hd atoms : Int) - si.len) := by
    rw [asI64_lt (by omega), addI_ok e (by omega) (by omega)]; congr 1; omega
  simp only [mkPlan, h, Option.bind_some]
  rw [E.bind_ok (a := (qi, qi + si.len, -(si.len : Int)))]
  · simp only []
    rw [E.bind_ok (a := (qi, qi + si.len))]
    · simp only []
      rw [E.bind_ok (a := (qi, qi + si.len))]
      · simp only []
        exact (E.bind_ok hadd).trans rfl
      · rfl
    · rfl
  · rw [E.bind_ok (end_ok (by omega)), E.bind_ok hsub]; rfl

theorem mkPlan_meta {mb : MoovBounds} {atoms : List AtomData} {e : Env} {bu : AtomBounds} {hd : Option AtomBounds} {qm : Nat} {sm : Size}
    (h : mb.udta = some ⟨bu, some ⟨⟨qm, sm⟩, hd, none⟩⟩) (h1 : qm + sm.len < 2^62) (h2 : insertLen hd atoms < 2^62) :
    mkPlan mb atoms e = .ok ⟨qm + sm.len, qm + sm.len, (insertLen hd atoms : Int), [⟨qm, sm⟩, bu, mb.bounds], none, none,
      if hd.isNone then some metaHdlr else none⟩ := by
  have hadd : addI 0 (asI64 (insertLen hd atoms)) e = .ok (insertLen hd atoms : Int) := by
    rw [asI64_lt (by omega), addI_ok e (by omega) (by omega)]; congr 1; omega
  simp only [mkPlan, h, Option.bind_some]
  rw [E.bind_ok (a := (0, 0, 0))]
  · simp only []
    rw [E.bind_ok (a := (qm + sm.len, qm + sm.len))]
    · simp only []
      rw [E.bind_ok (a := (qm + sm.len, qm + sm.len))]
      · simp only []
        exact (E.bind_ok hadd).trans rfl
      · rfl
    · exact (E.bind_ok (end_ok (by omega))).trans rfl
  · rfl

theorem mkPlan_udta {mb : MoovBounds} {atoms : List AtomData} {e : Env} {qu : Nat} {su : Size}
    (h : mb.udta = some ⟨⟨qu, su⟩, none⟩) (h1 : qu + su.len < 2^62) (h2 : (MetaW.size ⟨some metaHdlr, some atoms⟩).len < 2^62) :
    mkPlan mb atoms e = .ok ⟨qu + su.len, qu + su.len, ((MetaW.size ⟨some metaHdlr, some atoms⟩).len : Int), [⟨qu, su⟩, mb.bounds],
      none, some ⟨some metaHdlr, some atoms⟩, none⟩ := by
  have hadd : addI 0 (asI64 (MetaW.size ⟨some metaHdlr, some atoms⟩).len) e = .ok ((MetaW.size ⟨some metaHdlr, some atoms⟩).len : Int) := by
    rw [asI64_lt (by omega), addI_ok e (by omega) (by omega)]; congr 1; omega
  simp only [mkPlan, h, Option.bind_some]
  rw [E.bind_ok (a := (0, 0, 0))]
  · simp only []
    rw [E.bind_ok (a := (0, 0))]
    · simp only []
      rw [E.bind_ok (a := (qu + su.len, qu + su.len))]
      · simp only []
        exact (E.bind_ok hadd).trans rfl
      · exact (E.bind_ok (end_ok (by omega))).trans rfl
    · rfl
  · rfl

theorem mkPlan_moov {mb : MoovBounds} {atoms : List AtomData} {e : Env} {q : Nat} {sz : Size} (hb : mb.bounds = ⟨q, sz⟩)
    (h : mb.udta = none) (h1 : q + sz.len < 2^62) (h2 : (udtaSize (some ⟨some metaHdlr, some atoms⟩)).len < 2^62) :
    mkPlan mb atoms e = .ok ⟨q + sz.len, q + sz.len, ((udtaSize (some ⟨some metaHdlr, some atoms⟩)).len : Int), [mb.bounds],
      some (some ⟨some metaHdlr, some atoms⟩), none, none⟩ := by
  have hadd : addI 0 (asI64 (udtaSize (some ⟨some metaHdlr, some atoms⟩)).len) e = .ok ((udtaSize (some ⟨some metaHdlr, some atoms⟩)).len : Int) := by
    rw [asI64_lt (by omega), addI_ok e (by omega) (by omega)]; congr 1; omega
  simp only [mkPlan, h, Option.bind_none]
  rw [E.bind_ok (a := (0, 0, 0))]
  · simp only []
    rw [E.bind_ok (a := (0, 0))]
    · rw [E.bind_ok (a := (q + sz.len, q + sz.len))]
      · exact (E.bind_ok hadd).trans rfl
      · rw [hb]; exact (E.bind_ok (end_ok (by omega))).trans rfl
    · rfl
  · rfl

/-! ### Several size fields -/

/-- The bytes between the start of the movie atom and the place of the item list: heads of nested atoms, each followed
by the children in front. For each head, the atom before and after writing. -/
abbrev Heads := List (Box × Box × Bytes)

def Heads.old (hs : Heads) : Bytes := hs.flatMap fun h => h.1.head ++ h.2.2
def Heads.new (hs : Heads) : Bytes := hs.flatMap fun h => h.2.1.head ++ h.2.2
def Heads.bounds : Nat → Heads → List AtomBounds
  | _, [] => []
  | p, h :: hs => ⟨p, h.1.size⟩ :: Heads.bounds (p + h.1.headLen + h.2.2.length) hs

/-- The atoms differ only in their content, the length of which differs by `d`. -/
def Heads.OK (d : Int) (hs : Heads) : Prop :=
  ∀ h ∈ hs, h.2.1.ext = h.1.ext ∧ h.2.1.fc = h.1.fc ∧ (h.2.1.body.length : Int) = h.1.body.length + d ∧
    h.1.body.length + 16 < 2^63 ∧ h.2.1.body.length + 16 < 2^63

theorem Heads.length {d : Int} {hs : Heads} (h : hs.OK d) : hs.new.length = hs.old.length := by
  induction hs with
  | nil => rfl
  | cons x hs ih =>
    have h1 := (h x (by simp)).1
    have : x.2.1.headLen = x.1.headLen := by unfold Box.headLen; rw [h1]
    have hi := ih (fun y hy => h y (by simp [hy]))
    unfold Heads.new Heads.old at hi ⊢
    rw [List.flatMap_cons, List.flatMap_cons]
    simp only [List.length_append, Box.head_length] at hi ⊢
    omega

theorem heads_sees {F0 m e} {d : Int} : ∀ (hs : Heads) {s c} (P R : Bytes), hs ≠ [] → hs.OK d →
    Sees F0 m s (P ++ hs.old ++ R) c → m ≤ P.length → (P ++ hs.old).length ≤ e.maxPos →
    ∃ s' c', wAll (patchHead d) (hs.bounds P.length) e s = (.ok (), s') ∧ Sees F0 m s' (P ++ hs.new ++ R) c' ∧
      c' ≤ (P ++ hs.new).length := by
  intro hs
  induction hs with
  | nil => intro s c P R h; exact absurd rfl h
  | cons x hs ih =>
    intro s c P R _ hok h hm hmax
    obtain ⟨h1, h2, h3, h4, h5⟩ := hok x (by simp)
    have hok' : Heads.OK d hs := fun y hy => hok y (by simp [hy])
    have hold : Heads.old (x :: hs) = x.1.head ++ x.2.2 ++ Heads.old hs := by
      unfold Heads.old; rw [List.flatMap_cons]
    have hnew : Heads.new (x :: hs) = x.2.1.head ++ x.2.2 ++ Heads.new hs := by
      unfold Heads.new; rw [List.flatMap_cons]
    have hhl : x.2.1.headLen = x.1.headLen := by unfold Box.headLen; rw [h1]
    rw [hold] at h hmax
    simp only [List.length_append, Box.head_length] at hmax
    obtain ⟨s1, c1, g1, k1, l1⟩ := patchHead_sees (e := e) (b := x.1) (b' := x.2.1) P (x.2.2 ++ Heads.old hs ++ R)
      (by simpa using h) rfl hm h1 h2 h3 (by omega) h4 h5
    by_cases hn : hs = []
    · subst hn
      refine ⟨s1, c1, ?_, ?_, ?_⟩
      · rw [Heads.bounds, Heads.bounds, wAll_single, g1]
      · rw [hnew]; simpa [Heads.old, Heads.new] using k1
      · rw [hnew]; simp only [List.length_append, Box.head_length]; omega
    · have hl := Heads.length hok'
      obtain ⟨s2, c2, g2, k2, l2⟩ := ih (P ++ x.2.1.head ++ x.2.2) R hn hok' (by simpa using k1)
        (by simp only [List.length_append]; omega) (by simp only [List.length_append, Box.head_length]; omega)
      refine ⟨s2, c2, ?_, ?_, ?_⟩
      · rw [Heads.bounds, wAll_cons_ok g1]
        have : P.length + x.1.headLen + x.2.2.length = (P ++ x.2.1.head ++ x.2.2).length := by
          simp only [List.length_append, Box.head_length]; omega
        rw [this]; exact g2
      · rw [hnew]; simpa using k2
      · rw [hnew]; simpa using l2

/-- The writing phase after the chunk offset tables have been adjusted. -/
theorem writePhase_sees {F0 m e} {s0 s1 : WSt} {c1 : Nat} {mdatPos oldLen : Nat} {mb : MoovBounds} {plan : Plan} {atoms : List AtomData}
    (P : Bytes) (hs : Heads) (R N T : Bytes)
    (h1 : (if mdatPos > mb.bounds.pos then wAll (patchStbl plan.lenDiff) (stblAtoms mb) else pure () : W Unit) e s0 = (.ok (), s1))
    (h2 : Sees F0 m s1 (P ++ hs.old ++ R) c1) (hn : hs ≠ []) (hok : hs.OK plan.lenDiff) (hm : m ≤ P.length)
    (hb : plan.updateAtoms.reverse = hs.bounds P.length) (hw : Emits (newAtomsWr plan atoms) N)
    (hst : plan.newAtomsStart = (P ++ hs.old).length)
    (hmv : (plan.movedDataStart : Int) + plan.lenDiff = (P ++ hs.old ++ N).length)
    (hln : (oldLen : Int) + plan.lenDiff = (P ++ hs.old ++ N ++ T).length)
    (hmax : (P ++ hs.old ++ N ++ T).length ≤ e.maxPos) (h62 : (P ++ hs.old ++ N ++ T).length < 2^62) (ho : oldLen < 2^62)
    (hms : plan.movedDataStart < 2^62) :
    ∃ s', writePhase mdatPos mb plan oldLen T atoms e s0 = (.ok (), s') ∧ s'.buf = [] ∧
      Sees F0 m s' (P ++ hs.new ++ N ++ T) (P ++ hs.new ++ N ++ T).length := by
  have hl := Heads.length hok
  simp only [List.length_append] at hst hmv hln hmax h62
  obtain ⟨s2, c2, g2, k2, l2⟩ := heads_sees (e := e) hs P R hn hok h2 hm (by simp only [List.length_append]; omega)
  obtain ⟨s3, g3, k3, b3⟩ := finish_sees (e := e) (P ++ hs.new) R N T hw k2 (by simp only [List.length_append]; omega) l2
    (by simp only [List.length_append]; omega)
  refine ⟨s3, ?_, b3, k3⟩
  have a1 : addI (asI64 oldLen) plan.lenDiff e = .ok ((P ++ hs.new ++ N ++ T).length : Int) := by
    rw [asI64_lt (by omega), addI_ok e (by omega) (by omega)]
    congr 1
    simp only [List.length_append]; omega
  have a2 : addI (asI64 plan.movedDataStart) plan.lenDiff e = .ok ((P ++ hs.new ++ N).length : Int) := by
    rw [asI64_lt (by omega), addI_ok e (by omega) (by omega)]
    congr 1
    simp only [List.length_append]; omega
  have u1 : asU64 ((P ++ hs.new ++ N ++ T).length : Int) = (P ++ hs.new ++ N ++ T).length := by
    apply asU64_nat; simp only [List.length_append]; omega
  have u2 : asU64 ((P ++ hs.new ++ N).length : Int) = (P ++ hs.new ++ N).length := by
    apply asU64_nat; simp only [List.length_append]; omega
  have st : plan.newAtomsStart = (P ++ hs.new).length := by simp only [List.length_append]; omega
  have key : (do
      wAll (patchHead plan.lenDiff) plan.updateAtoms.reverse
      let n ← (addI (asI64 oldLen) plan.lenDiff).w
      wSetLen (asU64 n)
      wSeekStart plan.newAtomsStart
      wEmit (newAtomsWr plan atoms)
      let m ← (addI (asI64 plan.movedDataStart) plan.lenDiff).w
      wSeekStart (asU64 m)
      wWriteAll T
      wFlush : W Unit) e s1 = (.ok (), s3) := by
    rw [hb, W.bind_ok g2, W.bind_ok (E.w_ok a1 s2), u1, st]
    refine Eq.trans ?_ g3
    refine W.bind_congr fun _ _ => W.bind_congr fun _ _ => W.bind_congr fun _ s => ?_
    rw [W.bind_ok (E.w_ok a2 s), u2]
  unfold writePhase
  by_cases hgt : mdatPos > mb.bounds.pos
  · rw [if_pos hgt] at h1
    simp only [if_pos hgt]
    rw [W.bind_ok h1]; exact key
  · rw [if_neg hgt] at h1
    simp only [if_neg hgt]
    have : s0 = s1 := by injection h1
    rw [this]; exact key

end Mp4
