import Verif.Proof.NoPanic
import Verif.Proof.Provenance
import Verif.Proof.Fault
/-
Arbitrary input: everything the search finds, and everything the writing phase touches, is behind the beginning of `moov`.
-/
namespace Mp4
open Spec

section
variable {e : Env} {F : Bytes} {m : Nat}

/-- The bounds are those of an atom at or behind `m`. -/
def Ge (F : Bytes) (m : Nat) (b : AtomBounds) : Prop := m ≤ b.pos ∧ b.size.len < 2^63 ∧ b.pos + 8 ≤ F.length

/-- A search function for an atom at or behind `m` returns something with `Q` and does not move in front of `m`. -/
def FindsGe (e : Env) (F : Bytes) (m : Nat) {τ} (find : Size → P τ) (fc : Fourcc) (Q : τ → Prop) : Prop :=
  ∀ h p, m ≤ p → HeadOf F p h → h.fourcc = fc → Par e F (p + h.size.headLen) (find h.size) fun a q => Q a ∧ m ≤ q

theorem FindsGe.of {τ} {find : Size → P τ} {fc : Fourcc} {Q : τ → Prop} (he : Ends True e F find fc)
    (h : ∀ h p, m ≤ p → HeadOf F p h → h.fourcc = fc → Par e F (p + h.size.headLen) (find h.size) fun a _ => Q a) :
    FindsGe e F m find fc Q := fun hd p hp hat hf a q hm =>
  ⟨h hd p hp hat hf a q hm, by have := (he hd p hat hf).par a q hm; omega⟩

theorem HeadOf.ge (hs : SaneB e F) {h : Head} {p : Nat} (hat : HeadOf F p h) (hp : m ≤ p) : Ge F m ⟨p, h.size⟩ := by
  have := hat.le
  have h8 : 8 ≤ h.size.headLen := by unfold Size.headLen; split <;> omega
  exact ⟨hp, (hs.size hat).2, by dsimp only; omega⟩

/-- A loop over children at or behind `m`. -/
theorem loop_ge {σ} {limit : E Nat} {handle : σ → Head → P σ} {I : σ → Prop}
    (hh : ∀ s h p, I s → m ≤ p → HeadOf F p h → Par e F (p + h.size.headLen) (handle s h) fun s q => I s ∧ m ≤ q)
    {s parsed p} (hi : I s) (hp : m ≤ p) : Par e F p (loop limit handle s parsed) fun s q => I s ∧ m ≤ q :=
  loop_par (I := fun s q => I s ∧ m ≤ q) (fun s h p hi hat => hh s h p hi.1 hi.2 hat) ⟨hi, hp⟩

theorem FindsGe.child {σ τ} {find : Size → P τ} {fc : Fourcc} {Q : τ → Prop} (hf : FindsGe e F m find fc Q) {g : τ → σ} {I : σ → Prop}
    (hg : ∀ a, Q a → I (g a)) {h : Head} {p : Nat} (hp : m ≤ p) (hat : HeadOf F p h) (hfc : h.fourcc = fc) :
    Par e F (p + h.size.headLen) (do let a ← find h.size; Pure.pure (g a)) fun s q => I s ∧ m ≤ q :=
  .bind (hf h p hp hat hfc) fun a _ hq => .pure ⟨hg a hq.1, hq.2⟩

theorem skip_ge {σ} (hs : SaneB e F) {I : σ → Prop} {s : σ} (hi : I s) {h : Head} {p : Nat} (hp : m ≤ p) (hat : HeadOf F p h) :
    Par e F (p + h.size.headLen) (do skipContent h; Pure.pure s) fun s q => I s ∧ m ≤ q :=
  .bind (Tot.par (.skipContent hs hat)) fun _ _ hq => .pure ⟨hi, by omega⟩

theorem findLeaf_ge (hs : SaneB e F) {fc} : FindsGe e F m findLeaf fc (Ge F m) :=
  .of (findLeaf_tot hs fc) fun h p hp hat _ a q hm => by rw [findLeaf_inv hm]; exact hat.ge hs hp

theorem Par.findBounds {h : Head} {p : Nat} {Q : AtomBounds → Nat → Prop} (hq : Q ⟨p, h.size⟩ (p + h.size.headLen)) :
    Par e F (p + h.size.headLen) (findBounds h.size) Q := Tot.par (.findBounds hq)

/-- A searched container. -/
theorem find_ge {σ} {handle : σ → Head → P σ} {I : σ → Prop}
    (hh : ∀ s h p, I s → m ≤ p → HeadOf F p h → Par e F (p + h.size.headLen) (handle s h) fun s q => I s ∧ m ≤ q)
    {h : Head} {p : Nat} (hp : m ≤ p) {s : AtomBounds → σ} (hi : I (s ⟨p, h.size⟩)) :
    Par e F (p + h.size.headLen) (do let b ← findBounds h.size; loop h.size.contentLen handle (s b) 0) fun s q => I s ∧ m ≤ q := by
  refine .bind (.findBounds (Q := fun b q => b = ⟨p, h.size⟩ ∧ q = p + h.size.headLen) ⟨rfl, rfl⟩) ?_
  rintro _ _ ⟨rfl, rfl⟩
  exact loop_ge hh hi (by omega)

def StblGe (F : Bytes) (m : Nat) (s : StblBounds) : Prop := optAll (Ge F m) s.stco ∧ optAll (Ge F m) s.co64
def MetaGe (F : Bytes) (m : Nat) (b : MetaBounds) : Prop := Ge F m b.bounds ∧ optAll (Ge F m) b.ilst
def UdtaGe (F : Bytes) (m : Nat) (b : UdtaBounds) : Prop := Ge F m b.bounds ∧ optAll (MetaGe F m) b.meta?
def MoovGe (F : Bytes) (m : Nat) (b : MoovBounds) : Prop :=
  Ge F m b.bounds ∧ optAll (UdtaGe F m) b.udta ∧ ∀ t ∈ b.trak, optAll (optAll (optAll (StblGe F m))) t

theorem findStbl_ge (hs : SaneB e F) {fc} : FindsGe e F m findStbl fc (StblGe F m) := fun _ _ hp _ _ =>
  find_ge (I := StblGe F m) (fun s _ _ hi hp hat =>
    .ite (fun hf => (findLeaf_ge hs).child (g := fun a => { s with stco := some a }) (fun _ ha => ⟨ha, hi.2⟩) hp hat hf)
    fun _ => .ite (fun hf => (findLeaf_ge hs).child (g := fun a => { s with co64 := some a }) (fun _ ha => ⟨hi.1, ha⟩) hp hat hf)
    fun _ => skip_ge hs hi hp hat) hp (s := fun b => { bounds := b }) ⟨trivial, trivial⟩

/-- A container that interprets one kind of child. -/
theorem find_one_ge (hs : SaneB e F) {τ : Type} {find : Size → P τ} {fc fc' : Fourcc} {Q : τ → Prop} (hf : FindsGe e F m find fc Q) :
    FindsGe e F m (fun size => do
      let _ ← findBounds size
      loop size.contentLen (fun s h => if h.fourcc = fc then do let a ← find h.size; pure (some a) else do skipContent h; pure s) none 0)
      fc' (optAll Q) := fun _ _ hp _ _ =>
  find_ge (I := optAll Q) (fun s _ _ hi hp hat =>
    .ite (fun h => hf.child (g := some) (fun _ ha => ha) hp hat h) fun _ => skip_ge hs hi hp hat) hp (s := fun _ => none) trivial

theorem findMinf_ge (hs : SaneB e F) {fc} : FindsGe e F m findMinf fc (optAll (StblGe F m)) :=
  find_one_ge hs (findStbl_ge hs (fc := SAMPLE_TABLE))
theorem findMdia_ge (hs : SaneB e F) {fc} : FindsGe e F m findMdia fc (optAll (optAll (StblGe F m))) :=
  find_one_ge hs (findMinf_ge hs (fc := MEDIA_INFORMATION))
theorem findTrak_ge (hs : SaneB e F) {fc} : FindsGe e F m findTrak fc (optAll (optAll (optAll (StblGe F m)))) :=
  find_one_ge hs (findMdia_ge hs (fc := MEDIA))

theorem findMeta_ge (hs : SaneB e F) {fc} : FindsGe e F m findMeta fc (MetaGe F m) := by
  intro h p hp hat _
  refine .bind (.findBounds (Q := fun b q => b = ⟨p, h.size⟩ ∧ q = p + h.size.headLen) ⟨rfl, rfl⟩) ?_
  rintro _ _ ⟨rfl, rfl⟩
  refine .bind (Tot.par .fullHeadPos) ?_
  rintro ⟨v, fl⟩ _ rfl
  dsimp only
  refine .ite (fun _ => .fail) fun _ => ?_
  exact loop_ge (I := MetaGe F m) (fun s _ _ hi hp hat =>
    .ite (fun hf => (findLeaf_ge hs).child (g := fun a => { s with hdlr := some a }) (fun _ _ => hi) hp hat hf)
    fun _ => .ite (fun hf => (findLeaf_ge hs).child (g := fun a => { s with ilst := some a }) (fun _ ha => ⟨hi.1, ha⟩) hp hat hf)
    fun _ => skip_ge hs hi hp hat) ⟨hat.ge hs hp, trivial⟩ (by omega)

theorem findUdta_ge (hs : SaneB e F) {fc} : FindsGe e F m findUdta fc (UdtaGe F m) := fun _ _ hp hat _ =>
  find_ge (I := UdtaGe F m) (fun s _ _ hi hp hat =>
    .ite (fun hf => (findMeta_ge hs).child (g := fun a => { s with meta? := some a }) (fun _ ha => ⟨hi.1, ha⟩) hp hat hf)
    fun _ => skip_ge hs hi hp hat) hp (s := fun b => { bounds := b }) ⟨hat.ge hs hp, trivial⟩

theorem findMoov_ge (hs : SaneB e F) {fc} : FindsGe e F m findMoov fc (MoovGe F m) := fun _ _ hp hat _ =>
  find_ge (I := MoovGe F m) (fun s _ _ hi hp hat =>
    .ite (fun hf => (findTrak_ge hs).child (g := fun a => { s with trak := s.trak ++ [a] }) (fun a ha => ⟨hi.1, hi.2.1, fun t ht => by
      rcases List.mem_append.mp ht with ht | ht
      · exact hi.2.2 t ht
      · rw [List.mem_singleton.mp ht]; exact ha⟩) hp hat hf)
    fun _ => .ite (fun hf => (findUdta_ge hs).child (g := fun a => { s with udta := some a }) (fun _ ha => ⟨hi.1, ha, hi.2.2⟩) hp hat hf)
    fun _ => skip_ge hs hi hp hat) hp (s := fun b => { bounds := b }) ⟨hat.ge hs hp, trivial, by simp⟩

/-- There is a `moov` at `m`, and everything that has been found is at or behind it. -/
def InMoov (F : Bytes) (x : MoovBounds) : Prop := ∃ m s, HeadB F MOVIE ⟨m, s⟩ ∧ MoovGe F m x

theorem findTop_ge (hs : SaneB e F) {p : Nat} : Par e F p findTop fun x _ => InMoov F x.2 := by
  refine .bind .top fun _ _ _ => .bind .top fun len _ _ => ?_
  refine .bind (Q := fun (t : TopBounds) _ => optAll (InMoov F) t.moov) ?_ fun t _ ht => ?_
  · refine loop_par (I := fun (t : TopBounds) _ => optAll (InMoov F) t.moov) (fun s h p hi hat => ?_) trivial
    refine .ite (fun hf => ?_) fun _ => .ite (fun _ => .bind .top fun _ _ _ => .pure hi) fun _ => .bind .top fun _ _ _ => .pure hi
    refine .bind (findMoov_ge hs h p (Nat.le_refl _) hat hf) fun a q ha => .pure ?_
    exact ⟨p, h.size, by rw [← hf]; exact hat, ha.1⟩
  · cases hm : t.moov with
    | none => exact .fail
    | some x =>
      rw [hm] at ht
      exact .pure ht

/-! ### The plan -/

/-- What is known of a plan: everything it mentions is at or behind `m`. -/
structure PlanGe (F : Bytes) (m : Nat) (p : Plan) : Prop where
  start : m ≤ p.newAtomsStart
  moved : p.movedDataStart < 2^63 + F.length
  low : (m : Int) ≤ p.movedDataStart + p.lenDiff
  high : p.lenDiff < 2^62
  upd : ∀ a ∈ p.updateAtoms, m ≤ a.pos

theorem ETot.addI' {e} {a b : Int} (h : -2^63 ≤ a + b ∧ a + b < 2^63) : ETot True e (Mp4.addI a b) fun n => n = a + b := by
  unfold ETot Mp4.addI
  rw [if_pos h]
  exact .inl ⟨_, rfl, rfl⟩

theorem ETot.ok {α e} {c : E α} {Q : α → Prop} (h : ETot True e c Q) {a : α} (ha : c e = .ok a) : Q a := by
  rcases h with ⟨b, hb, hq⟩ | ⟨hb, -⟩
  · rw [hb] at ha; cases ha; exact hq
  · rw [hb] at ha; cases ha

theorem ETot.endGe {e} (hF : F.length < 2^63) {b : AtomBounds} (hb : Ge F m b) : ETot True e b.end_ fun n => n = b.pos + b.size.len := by
  obtain ⟨h1, h2, h3⟩ := hb
  exact .inl ⟨_, by unfold AtomBounds.end_ addU; exact if_pos (by omega), rfl⟩

theorem mkPlan_ge {moov : MoovBounds} {atoms : List AtomData} (hF : F.length < 2^63) (hf : MoovGe F m moov) (hB : insertBound atoms < 2^62) :
    ETot True e (mkPlan moov atoms) (PlanGe F m) := by
  obtain ⟨mb, tr, ud⟩ := moov
  obtain ⟨hm, hu, -⟩ := hf
  obtain ⟨hm1, hm2, hm3⟩ := id hm
  dsimp only at hm1 hm2 hm3
  match ud, hu with
  | none, _ =>
    simp only [mkPlan, Option.bind_none]
    refine .bind (.pure (Q := fun x => x = (0, 0, 0)) rfl) ?_
    rintro _ rfl
    refine .bind (.pure (Q := fun x => x = (0, 0)) rfl) ?_
    rintro _ rfl
    refine .bind (.bind (.endGe hF hm) fun n hn => .pure (Q := fun x => x = (mb.pos + mb.size.len, mb.pos + mb.size.len)) (by rw [hn])) ?_
    rintro _ rfl
    have hins := insert_le atoms (some metaHdlr) (.inl rfl)
    have hlt : (udtaSize (some ⟨some metaHdlr, some atoms⟩)).len < 2^62 := by omega
    have h64 := asI64_small (Nat.lt_trans hlt (by decide : 2^62 < 2^63))
    refine .bind (.addI' ?_) fun d hd => .pure ?_
    · constructor <;> dsimp only <;> simp only [Option.isNone_none, if_true] <;> omega
    simp only [Option.isNone_none, if_true] at hd
    rw [h64] at hd
    refine ⟨by dsimp only; omega, by dsimp only; omega, by dsimp only; omega, by dsimp only; omega, fun a ha => ?_⟩
    simp only [List.nil_append, List.mem_singleton] at ha
    exact ha ▸ hm1
  | some ⟨bu, none⟩, hu =>
    obtain ⟨hu1, hu2, hu3⟩ := hu.1
    dsimp only at hu1 hu2 hu3
    simp only [mkPlan, Option.bind_some]
    refine .bind (.pure (Q := fun x => x = (0, 0, 0)) rfl) ?_
    rintro _ rfl
    refine .bind (.pure (Q := fun x => x = (0, 0)) rfl) ?_
    rintro _ rfl
    refine .bind (.bind (.endGe hF hu.1) fun n hn => .pure (Q := fun x => x = (bu.pos + bu.size.len, bu.pos + bu.size.len)) (by rw [hn])) ?_
    rintro _ rfl
    have hins := insert_le atoms (some metaHdlr) (.inl rfl)
    have hlt : (MetaW.size ⟨some metaHdlr, some atoms⟩).len < 2^62 := by omega
    have h64 := asI64_small (Nat.lt_trans hlt (by decide : 2^62 < 2^63))
    refine .bind (.addI' ?_) fun d hd => .pure ?_
    · constructor <;> dsimp only <;> simp only [Option.bind_none, Option.isNone_none, if_true] <;> omega
    simp only [Option.bind_none, Option.isNone_none, if_true] at hd
    rw [h64] at hd
    refine ⟨by dsimp only; omega, by dsimp only; omega, by dsimp only; omega, by dsimp only; omega, fun a ha => ?_⟩
    simp only [List.nil_append, List.mem_append, List.mem_singleton] at ha
    rcases ha with rfl | rfl
    · exact hu1
    · exact hm1
  | some ⟨bu, some ⟨bm, hd, none⟩⟩, hu =>
    obtain ⟨hu1, hu2, hu3⟩ := hu.1
    obtain ⟨hv1, hv2, hv3⟩ := hu.2.1
    dsimp only at hu1 hu2 hu3 hv1 hv2 hv3
    simp only [mkPlan, Option.bind_some]
    refine .bind (.pure (Q := fun x => x = (0, 0, 0)) rfl) ?_
    rintro _ rfl
    refine .bind (.bind (.endGe hF hu.2.1) fun n hn => .pure (Q := fun x => x = (bm.pos + bm.size.len, bm.pos + bm.size.len)) (by rw [hn])) ?_
    rintro _ rfl
    refine .bind (.pure (Q := fun x => x = (bm.pos + bm.size.len, bm.pos + bm.size.len)) rfl) ?_
    rintro _ rfl
    have hins := insert_le atoms (if hd.isNone then some metaHdlr else none) (by split <;> simp)
    have hlt : lenOrZero hdlrSize (if hd.isNone then some metaHdlr else none) + (ilstSize atoms).len < 2^62 := by omega
    have h64 := asI64_small (Nat.lt_trans hlt (by decide : 2^62 < 2^63))
    refine .bind (.addI' ?_) fun d hd => .pure ?_
    · constructor <;> dsimp only <;> omega
    rw [h64] at hd
    dsimp only at hd
    refine ⟨by dsimp only; omega, by dsimp only; omega, by dsimp only; omega, by dsimp only; omega, fun a ha => ?_⟩
    simp only [List.mem_append, List.mem_singleton] at ha
    rcases ha with (rfl | rfl) | rfl
    · exact hv1
    · exact hu1
    · exact hm1
  | some ⟨bu, some ⟨bm, hd, some bi⟩⟩, hu =>
    obtain ⟨hu1, hu2, hu3⟩ := hu.1
    obtain ⟨hv1, hv2, hv3⟩ := hu.2.1
    have hbi : Ge F m bi := hu.2.2
    obtain ⟨hi1, hi2, hi3⟩ := id hbi
    dsimp only at hu1 hu2 hu3 hv1 hv2 hv3
    simp only [mkPlan, Option.bind_some]
    have hi := asI64_small (n := bi.size.len) hi2
    refine .bind (.bind (.endGe hF hbi) fun n hn => .bind (.subI (Q := fun d => d = 0 - asI64 bi.size.len) (by omega) rfl) fun d hd' =>
      .pure (Q := fun x => x = (bi.pos, bi.pos + bi.size.len, 0 - asI64 bi.size.len)) (by rw [hn, hd'])) ?_
    rintro _ rfl
    refine .bind (.pure (Q := fun x => x = (bi.pos, bi.pos + bi.size.len)) rfl) ?_
    rintro _ rfl
    refine .bind (.pure (Q := fun x => x = (bi.pos, bi.pos + bi.size.len)) rfl) ?_
    rintro _ rfl
    have hins := insert_le atoms (if hd.isNone then some metaHdlr else none) (by split <;> simp)
    have hlt : lenOrZero hdlrSize (if hd.isNone then some metaHdlr else none) + (ilstSize atoms).len < 2^62 := by omega
    have h64 := asI64_small (Nat.lt_trans hlt (by decide : 2^62 < 2^63))
    refine .bind (.addI' ?_) fun d hd => .pure ?_
    · constructor <;> dsimp only <;> omega
    rw [h64, hi] at hd
    dsimp only at hd
    refine ⟨by dsimp only; omega, by dsimp only; omega, by dsimp only; omega, by dsimp only; omega, fun a ha => ?_⟩
    simp only [List.mem_append, List.mem_singleton] at ha
    rcases ha with (rfl | rfl) | rfl
    · exact hv1
    · exact hu1
    · exact hm1

theorem preparePhase_ge (hs : SaneB e F) {atoms : List AtomData} (hB : insertBound atoms < 2^62) {p : Nat} :
    Par e F p (preparePhase atoms) fun x _ => ∃ m s, HeadB F MOVIE ⟨m, s⟩ ∧ MoovGe F m x.2.1 ∧ PlanGe F m x.2.2.1 ∧
      x.2.2.2.1 = F.length ∧ x.2.2.1.movedDataStart ≤ F.length := by
  have hF := hs.fit.len
  have hx := hs.max
  refine .bind (findTop_ge hs) ?_
  rintro ⟨mp, moov⟩ q ⟨m, s, hm, hge⟩
  dsimp only at hge ⊢
  refine .bind (.E (Q := fun pl _ => PlanGe F m pl) fun pl hpl => (mkPlan_ge (by omega) hge hB).ok hpl) fun pl q1 hpl => ?_
  refine .bind (Tot.par (.seekEnd (Q := fun n _ => n = F.length) rfl)) ?_
  rintro _ q2 rfl
  refine .bind (.E (Q := fun n _ => (pl.movedDataStart ≤ F.length) ∨ 2^63 ≤ n) fun n hn => ?_) fun n q3 hn => ?_
  · rcases subU_cases hn with ⟨h1, _⟩ | ⟨h1, h2⟩
    · exact .inl h1
    · have := hpl.moved; exact .inr (by omega)
  refine .bind (Tot.par (.alloc (Q := fun _ _ => n < 2^63) (fun _ => trivial) fun h => h)) fun _ q4 hn' => ?_
  have hle : pl.movedDataStart ≤ F.length := by rcases hn with hn | hn <;> omega
  exact .bind .top fun _ _ _ => .bind .top fun _ _ _ => .pure ⟨m, s, hm, hge, hpl, rfl, hle⟩

theorem asU64_addI {a b : Int} {e n} (h : addI a b e = .ok n) (h1 : 0 ≤ a + b) (h2 : a + b < 2^64) : (asU64 n : Int) = a + b := by
  unfold addI at h
  split at h
  · injection h with h
    rw [← h]
    unfold asU64
    omega
  · split at h
    · cases h
    · injection h with h
      rw [← h]
      unfold asU64 wrapI64
      omega

/-- Whatever calls fail: nothing has happened, or the file is the result of the system calls, and there is a `moov` in the input in front of which none of
them touches a byte. -/
theorem writeTagF_front (fl : Faults) (hs : SaneB e F) {atoms : List AtomData} (hB : insertBound atoms < 2^62) (p : Nat) :
    ((writeTagF fl e F p atoms).2.file = F ∧ (writeTagF fl e F p atoms).2.trace = []) ∨
    ∃ m s, HeadB F MOVIE ⟨m, s⟩ ∧ Safe F m (writeTagF fl e F p atoms).2.toWSt := by
  have h0 : ∀ m, Safe F m { file := F, cur := e.rcur 0 } := fun m => ⟨rfl, (fun _ h => by cases h), fun h => absurd rfl h⟩
  have hF := hs.fit.len
  have hx := hs.max
  unfold writeTagF
  cases hsr : fl.search
  · simp only [Bool.false_eq_true, if_false]
    rcases hc : preparePhase atoms e F p with ⟨⟨mp, moov, pl, ol, moved⟩, c⟩ | k | _ | _
    · obtain ⟨m, s, hm, hge, hpl, hol, hmv⟩ := preparePhase_ge hs hB _ _ hc
      dsimp only at hge hpl hol hmv ⊢
      subst hol
      refine .inr ⟨m, s, hm, ?_⟩
      have hlow := hpl.low
      have hhigh := hpl.high
      have key := fWritePhase_keeps (F0 := F) (m := m) (e := e) (mp := mp) (moov := moov) (ol := F.length) (moved := moved)
        (atoms := atoms) (p := pl)
        (by
          intro st hst
          unfold stblAtoms at hst
          obtain ⟨t, ht, hst⟩ := List.mem_filterMap.mp hst
          have hall := hge.2.2 t ht
          have hin : StblGe F m st := by
            match t, hall, hst with
            | some (some (some x)), hall, hst => cases hst; exact hall
          constructor
          · intro a ha
            have := hin.1
            rw [ha] at this
            exact ⟨this.1, by have := this.2.2; omega⟩
          · intro a ha
            have := hin.2
            rw [ha] at this
            exact ⟨this.1, by have := this.2.2; omega⟩)
        hpl.upd
        (by
          intro n hn'
          rw [asI64_lt (by omega)] at hn'
          have := asU64_addI hn' (by omega) (by omega)
          omega)
        hpl.start
        (by
          intro n hn'
          rw [asI64_lt (by omega)] at hn'
          have := asU64_addI hn' (by omega) (by omega)
          omega)
      exact (flush_keeps (key fl { file := F, cur := e.rcur 0 } (h0 m) rfl).1).1
    · exact .inl ⟨rfl, rfl⟩
    · exact .inl ⟨rfl, rfl⟩
    · exact .inl ⟨rfl, rfl⟩
  · simp only [if_true]
    exact .inl ⟨trivial, trivial⟩

end

end Mp4
