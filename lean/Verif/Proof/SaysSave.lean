import Verif.Proof.SaysWrite
import Verif.Proof.SaysFind
import Verif.Proof.Fault
import Verif.Proof.Stuck
/-
Each error of writing occurs (for C84).
-/
namespace Mp4
open Spec

/-! ### A computation only depends on the outcome of the calls it issues -/

/-- Other outcomes of later calls do not matter. -/
def LocF {α} (m : FW α) : Prop := ∀ fl fl' e s, s.tick ≤ (m fl e s).2.tick ∧
  ((∀ n, n < (m fl e s).2.tick → fl'.call n = fl.call n) → m fl' e s = m fl e s)

/-- See `LocF`. -/
def Loc {α} (m : FD α) : Prop := ∀ fl fl' e s, s.tick ≤ (m fl e s).2.tick ∧
  ((∀ n, n < (m fl e s).2.tick → fl'.call n = fl.call n) → m fl' e s = m fl e s)

theorem LocF.bind {α β} {m : FW α} {f : α → FW β} (h1 : LocF m) (h2 : ∀ a, LocF (f a)) : LocF (m >>= f) := by
  intro fl fl' e s
  change s.tick ≤ (FW.bind m f fl e s).2.tick ∧ ((∀ n, n < (FW.bind m f fl e s).2.tick → fl'.call n = fl.call n) →
    FW.bind m f fl' e s = FW.bind m f fl e s)
  obtain ⟨a1, a2⟩ := h1 fl fl' e s
  unfold FW.bind
  cases hm : m fl e s with
  | mk r s1 =>
    rw [hm] at a1 a2
    cases r with
    | ok a =>
      obtain ⟨b1, b2⟩ := h2 a fl fl' e s1
      refine ⟨Nat.le_trans a1 b1, fun h => ?_⟩
      rw [a2 fun n hn => h n (Nat.lt_of_lt_of_le hn b1)]
      exact b2 h
    | err k => exact ⟨a1, fun h => by rw [a2 h]⟩
    | panic => exact ⟨a1, fun h => by rw [a2 h]⟩
    | fuel => exact ⟨a1, fun h => by rw [a2 h]⟩

theorem Loc.bind {α β} {m : FD α} {f : α → FD β} (h1 : Loc m) (h2 : ∀ a, Loc (f a)) : Loc (m >>= f) := by
  intro fl fl' e s
  change s.tick ≤ (FD.bind m f fl e s).2.tick ∧ ((∀ n, n < (FD.bind m f fl e s).2.tick → fl'.call n = fl.call n) →
    FD.bind m f fl' e s = FD.bind m f fl e s)
  obtain ⟨a1, a2⟩ := h1 fl fl' e s
  unfold FD.bind
  cases hm : m fl e s with
  | mk r s1 =>
    rw [hm] at a1 a2
    cases r with
    | ok a =>
      obtain ⟨b1, b2⟩ := h2 a fl fl' e s1
      refine ⟨Nat.le_trans a1 b1, fun h => ?_⟩
      rw [a2 fun n hn => h n (Nat.lt_of_lt_of_le hn b1)]
      exact b2 h
    | err k => exact ⟨a1, fun h => by rw [a2 h]⟩
    | panic => exact ⟨a1, fun h => by rw [a2 h]⟩
    | fuel => exact ⟨a1, fun h => by rw [a2 h]⟩

theorem LocF.const {α} {m : FW α} (h : ∀ fl fl' e s, m fl e s = m fl' e s) (ht : ∀ fl e s, s.tick ≤ (m fl e s).2.tick) : LocF m :=
  fun fl fl' e s => ⟨ht fl e s, fun _ => h fl' fl e s⟩

theorem LocF.pure {α} (a : α) : LocF (pure a : FW α) := .const (fun _ _ _ _ => rfl) fun _ _ s => Nat.le_refl s.tick
theorem LocF.fw {α} (m : E α) : LocF m.fw := .const (fun _ _ _ _ => rfl) fun _ _ s => Nat.le_refl s.tick
theorem Loc.pure {α} (a : α) : Loc (pure a : FD α) := fun _ _ _ s => ⟨Nat.le_refl s.tick, fun _ => rfl⟩

theorem LocF.flushBuf : LocF fFlushBuf := by
  intro fl fl' e s
  unfold fFlushBuf
  split
  · exact ⟨Nat.le_refl _, fun _ => rfl⟩
  · cases hc : fl.call s.tick with
    | none => exact ⟨by show s.tick ≤ s.tick + 1; omega, fun h => by rw [h s.tick (by show _ < s.tick + 1; omega), hc]⟩
    | some n => exact ⟨by show s.tick ≤ s.tick + 1; omega, fun h => by rw [h s.tick (by show _ < s.tick + 1; omega), hc]⟩

theorem LocF.sysWrite (b : Bytes) : LocF (fSysWrite b) := by
  intro fl fl' e s
  unfold fSysWrite
  split
  · exact ⟨Nat.le_refl _, fun _ => rfl⟩
  · cases hc : fl.call s.tick with
    | none => exact ⟨by show s.tick ≤ s.tick + 1; omega, fun h => by rw [h s.tick (by show _ < s.tick + 1; omega), hc]⟩
    | some n => exact ⟨by show s.tick ≤ s.tick + 1; omega, fun h => by rw [h s.tick (by show _ < s.tick + 1; omega), hc]⟩

theorem LocF.writeDirect (b : Bytes) : LocF (fWriteDirect b) := by
  intro fl fl' e s
  unfold fWriteDirect
  split
  · exact LocF.sysWrite b fl fl' e s
  · exact ⟨Nat.le_refl s.tick, fun _ => rfl⟩

theorem LocF.writeAll (b : Bytes) : LocF (fWriteAll b) := by
  intro fl fl' e s
  unfold fWriteAll
  split
  · exact ⟨Nat.le_refl s.tick, fun _ => rfl⟩
  · split
    · exact (LocF.bind (f := fun _ => fWriteDirect b) LocF.flushBuf fun _ => LocF.writeDirect b) fl fl' e s
    · exact LocF.writeDirect b fl fl' e s

theorem LocF.seekStart (n : Nat) : LocF (fSeekStart n) :=
  .bind .flushBuf fun _ => .const (fun _ _ _ _ => rfl) fun _ e s => by
    split <;> exact Nat.le_refl s.tick

theorem LocF.seekCur (n : Nat) : LocF (fSeekCur n) :=
  .bind .flushBuf fun _ => .const (fun _ _ _ _ => rfl) fun _ e s => by
    split <;> exact Nat.le_refl s.tick

theorem LocF.setLen (n : Nat) : LocF (fSetLen n) := by
  intro fl fl' e s
  unfold fSetLen
  split
  · cases hc : fl.call s.tick with
    | none => exact ⟨by show s.tick ≤ s.tick + 1; omega, fun h => by rw [h s.tick (by show _ < s.tick + 1; omega), hc]⟩
    | some n => exact ⟨by show s.tick ≤ s.tick + 1; omega, fun h => by rw [h s.tick (by show _ < s.tick + 1; omega), hc]⟩
  · exact ⟨Nat.le_refl _, fun _ => rfl⟩

theorem Loc.say {α} {d : Str} {m : FW α} (h : LocF m) : Loc (sayF d m) := by
  intro fl fl' e s
  unfold sayF
  exact ⟨(h fl fl' e s).1, fun h' => by rw [(h fl fl' e s).2 h']⟩

theorem Loc.quiet {α} {m : FW α} (h : LocF m) : Loc (quietF m) := .say h

theorem LocF.all {α} {f : α → FW Unit} (h : ∀ a, LocF (f a)) : ∀ l, LocF (fAll f l)
  | [] => .pure ()
  | x :: xs => .bind (h x) fun _ => LocF.all h xs

theorem Loc.all {α} {f : α → FD Unit} (h : ∀ a, Loc (f a)) : ∀ l, Loc (fdAll f l)
  | [] => .pure ()
  | x :: xs => .bind (h x) fun _ => Loc.all h xs

theorem Loc.opt {α} {f : α → FD Unit} (h : ∀ a, Loc (f a)) : ∀ x, Loc (fdOpt f x)
  | none => .pure ()
  | some a => h a

theorem Loc.read {α} (texts : List Str) (pos : Nat) (p : D α) : Loc (fdRead texts pos p) := by
  intro fl fl' e s
  have ht : (fdRead texts pos p fl e s).2.tick = s.tick + 1 := by
    unfold fdRead
    dsimp only
    split
    · split <;> rfl
    · rfl
  rw [ht]
  exact ⟨by omega, fun h => by unfold fdRead; rw [h s.tick (by omega)]⟩

theorem Loc.patchTable (t : TableKind) (d : Int) (a : AtomBounds) : Loc (fdPatchTable t d a) :=
  .bind (.quiet (.fw _)) fun _ => .bind (.read _ _ _) fun _ => .quiet (.bind (.seekStart _) fun _ =>
    .bind (.all (fun _ => .bind (.fw _) fun _ => .writeAll _) _) fun _ => .flushBuf)

theorem Loc.patchStbl (d : Int) (s : StblBounds) : Loc (fdPatchStbl d s) :=
  .bind (.opt (.patchTable _ d) _) fun _ => .opt (.patchTable _ d) _

theorem LocF.patchHead (d : Int) (a : AtomBounds) : LocF (fPatchHead d a) := by
  refine .bind (.fw _) fun _ => .bind (.seekStart _) fun _ => ?_
  split
  · exact .bind (.writeAll _) fun _ => .bind (.seekCur _) fun _ => .writeAll _
  · exact .writeAll _

/-- What happens before the new atoms are written. -/
def fdBefore (mdatPos : Nat) (moov : MoovBounds) (p : Plan) (oldLen : Nat) : FD Unit :=
  (if mdatPos > moov.bounds.pos then fdAll (fdPatchStbl p.lenDiff) (stblAtoms moov) else pure ()) >>= fun _ => do
  quietF (fAll (fPatchHead p.lenDiff) p.updateAtoms.reverse)
  let n ← quietF (addI (asI64 oldLen) p.lenDiff).fw
  quietF (fSetLen (asU64 n))

/-- What happens after the new atoms are written. -/
def fdAfter (p : Plan) (moved : Bytes) : FD Unit := do
  let m ← quietF (addI (asI64 p.movedDataStart) p.lenDiff).fw
  quietF (fSeekStart (asU64 m))
  quietF (fWriteAll moved)
  quietF fFlush

theorem FD.assoc {α β γ} (a : FD α) (b : α → FD β) (c : β → FD γ) : (a >>= b) >>= c = a >>= fun x => b x >>= c := by
  funext fl e s
  change FD.bind (FD.bind a b) c fl e s = FD.bind a (fun x => FD.bind (b x) c) fl e s
  unfold FD.bind
  cases a fl e s with
  | mk r s1 => cases r <;> rfl

theorem fdWritePhase_split (mdatPos moov p oldLen moved atoms) : fdWritePhase mdatPos moov p oldLen moved atoms =
    fdBefore mdatPos moov p oldLen >>= fun _ => (do quietF (fSeekStart p.newAtomsStart); fdEmit (newAtomsWrD p atoms); fdAfter p moved) := by
  unfold fdWritePhase fdBefore fdAfter
  split
  · simp only [FD.assoc]
  · simp only [FD.assoc]
    rfl

theorem Loc.before (mdatPos moov p oldLen) : Loc (fdBefore mdatPos moov p oldLen) := by
  refine .bind ?_ fun _ => .bind (.quiet (.all (.patchHead _) _)) fun _ => .bind (.quiet (.fw _)) fun _ => .quiet (.setLen _)
  split
  · exact .all (.patchStbl _) _
  · exact .pure _

/-! ### Writing the new atoms fails -/

/-- If no call succeeds any more, writing more than the buffer takes fails. -/
theorem fdAll_fails {fl : Faults} {e : Env} {d : Str} (hc : 0 < e.cap) : ∀ (B : List (Str × Bytes)) (s : FSt), (∀ n, s.tick ≤ n → fl.call n ≠ none) →
    (∀ c ∈ B, c.1 = d) → s.buf.length ≤ e.cap → e.cap < s.buf.length + total B →
    ∃ s', fdAll (fun c => sayF c.1 (fWriteAll c.2)) B fl e s = (.err .io d, s')
  | [], s, _, _, h1, h2 => by
    have : total ([] : List (Str × Bytes)) = 0 := rfl
    omega
  | c :: B, s, hfl, hd, h1, h2 => by
    have ht : total (c :: B) = c.2.length + total B := rfl
    have hcd := hd c (by simp)
    obtain ⟨n, hn⟩ := Option.ne_none_iff_exists'.mp (hfl s.tick (Nat.le_refl _))
    have hflush : s.buf ≠ [] → ∃ s', fFlushBuf fl e s = (.err .io, s') := fun hb => by
      unfold fFlushBuf
      rw [if_neg (by simpa using hb), hn]
      exact ⟨_, rfl⟩
    have hsys : c.2 ≠ [] → ∃ s', fSysWrite c.2 fl e s = (.err .io, s') := fun hb => by
      unfold fSysWrite
      rw [if_neg (by simpa using hb), hn]
      exact ⟨_, rfl⟩
    have hne : ∀ {x : Bytes}, 0 < x.length → x ≠ [] := fun h h' => by rw [h'] at h; exact absurd h (by decide)
    have hfail : ∀ {s'}, fWriteAll c.2 fl e s = (.err .io, s') →
        ∃ s', fdAll (fun c => sayF c.1 (fWriteAll c.2)) (c :: B) fl e s = (.err .io d, s') := fun {s'} h => by
      refine ⟨s', ?_⟩
      show FD.bind (sayF c.1 (fWriteAll c.2)) _ fl e s = _
      unfold FD.bind sayF
      rw [h, hcd]
      rfl
    have hgo : fWriteAll c.2 fl e s = (.ok (), { s with buf := s.buf ++ c.2 }) → s.buf.length + c.2.length ≤ e.cap →
        ∃ s', fdAll (fun c => sayF c.1 (fWriteAll c.2)) (c :: B) fl e s = (.err .io d, s') := fun h hle => by
      obtain ⟨s', h'⟩ := fdAll_fails (fl := fl) hc B { s with buf := s.buf ++ c.2 } hfl (fun x hx => hd x (by simp [hx]))
        (by show (s.buf ++ c.2).length ≤ _; rw [List.length_append]; omega)
        (by show _ < (s.buf ++ c.2).length + _; rw [List.length_append]; omega)
      refine ⟨s', ?_⟩
      rw [← h']
      show FD.bind (sayF c.1 (fWriteAll c.2)) _ fl e s = _
      unfold FD.bind sayF
      rw [h]
      rfl
    by_cases g1 : c.2.length < e.cap - s.buf.length
    · exact hgo (by unfold fWriteAll; rw [if_pos g1]) (by omega)
    · by_cases g2 : c.2.length > e.cap - s.buf.length
      · by_cases g3 : s.buf = []
        · obtain ⟨s', h'⟩ := hsys (hne (by omega))
          refine hfail (s' := s') ?_
          unfold fWriteAll FW.bind fFlushBuf
          rw [if_neg g1, if_pos g2, if_pos (by simp [g3])]
          dsimp only
          unfold fWriteDirect
          rw [if_pos (by rw [g3, List.length_nil] at g2; omega)]
          exact h'
        · obtain ⟨s', h'⟩ := hflush g3
          refine hfail (s' := s') ?_
          unfold fWriteAll FW.bind
          rw [if_neg g1, if_pos g2, h']
      · by_cases g3 : e.cap ≤ c.2.length
        · obtain ⟨s', h'⟩ := hsys (hne (by omega))
          refine hfail (s' := s') ?_
          unfold fWriteAll fWriteDirect
          rw [if_neg g1, if_neg g2, if_pos g3]
          exact h'
        · refine hgo ?_ (by omega)
          unfold fWriteAll fWriteDirect
          rw [if_neg g1, if_neg g2, if_neg (by omega)]

/-- The schedule in which calls fail from number `n` on. -/
def failsFrom (n : Nat) : Faults := ⟨fun k => if k < n then none else some 0, false⟩

theorem FD.bind_inv {α β} {m : FD α} {f : α → FD β} {fl e s b s'} (h : (m >>= f) fl e s = (.ok b, s')) :
    ∃ a s1, m fl e s = (.ok a, s1) ∧ f a fl e s1 = (.ok b, s') := by
  change FD.bind m f fl e s = _ at h
  unfold FD.bind at h
  split at h
  · exact ⟨_, _, ‹_›, h⟩
  · cases h
  · cases h
  · cases h

theorem FD.bind_ok {α β} {m : FD α} {f : α → FD β} {fl e s a s'} (h : m fl e s = (.ok a, s')) : (m >>= f) fl e s = f a fl e s' := by
  show FD.bind m f fl e s = _
  unfold FD.bind
  rw [h]

theorem FD.bind_err {α β} {m : FD α} {f : α → FD β} {fl e s k d s'} (h : m fl e s = (.err k d, s')) :
    (m >>= f) fl e s = (.err k d, s') := by
  show FD.bind m f fl e s = _
  unfold FD.bind
  rw [h]

/-- If writing succeeds and the new atoms do not fit into the buffer, the write can fail with the description of what is
written last. -/
theorem write_fails {e : Env} {F : Bytes} {pos N : Nat} {atoms : List AtomData} {d : Str} {mdatPos moov p oldLen moved q s}
    (hprep : preparePhaseD atoms e F pos = .ok ((mdatPos, moov, p, oldLen, moved), q))
    (hok : writeTagD Faults.none e F pos atoms = (.ok (), s)) (hl : Late N (· = d) (newAtomsWrD p atoms)) (hN : N < e.cap)
    (hb : e.cap < total (newAtomsWrD p atoms e).1) : ∃ n s', writeTagD (failsFrom n) e F pos atoms = (.err .io d, s') := by
  unfold writeTagD at hok ⊢
  rw [hprep] at hok ⊢
  dsimp only at hok ⊢
  generalize hs0 : ({ file := F, cur := e.rcur 0 } : FSt) = s0 at hok ⊢
  rw [fdWritePhase_split] at hok ⊢
  have h1 : ∃ s1, (fdBefore mdatPos moov p oldLen >>= fun _ =>
      (do quietF (fSeekStart p.newAtomsStart); fdEmit (newAtomsWrD p atoms); fdAfter p moved)) Faults.none e s0 = (.ok (), s1) := by
    have h' := congrArg Prod.fst hok
    dsimp only at h'
    rw [← h']
    exact ⟨_, rfl⟩
  obtain ⟨s1, h1⟩ := h1
  obtain ⟨a, s2, h2, h3⟩ := FD.bind_inv h1
  obtain ⟨b, s3, h4, -⟩ := FD.bind_inv h3
  have hb3 : s3.buf = [] := by
    cases hr : fSeekStart p.newAtomsStart Faults.none e s2 with
    | mk r s4 =>
      unfold quietF sayF at h4
      rw [hr] at h4
      cases r with
      | ok a => cases h4; exact fSeekStart_buf hr
      | err k => cases h4
      | panic => cases h4
      | fuel => cases h4
  have hpre : (fdBefore mdatPos moov p oldLen >>= fun _ => quietF (fSeekStart p.newAtomsStart)) Faults.none e s0 = (.ok b, s3) := by
    rw [FD.bind_ok h2]; exact h4
  have hpre' : (fdBefore mdatPos moov p oldLen >>= fun _ => quietF (fSeekStart p.newAtomsStart)) (failsFrom s3.tick) e s0 = (.ok b, s3) := by
    rw [← hpre]
    refine ((Loc.bind (Loc.before mdatPos moov p oldLen) fun _ => Loc.quiet (.seekStart p.newAtomsStart)) Faults.none (failsFrom s3.tick) e s0).2 ?_
    rw [hpre]
    intro n hn
    show (if n < s3.tick then none else some 0) = none
    rw [if_pos hn]
  obtain ⟨A, B, g1, g2, g3, g4⟩ := hl e
  rw [g1, total_append] at hb
  obtain ⟨s4, k1, k2, k3⟩ := fdAll_buffered (e := e) (fl := failsFrom s3.tick) B A s3 (by rw [hb3]; show 0 + _ < _; omega)
  rw [hb3] at k2
  have k2 : s4.buf.length = total A := by rw [k2]; show 0 + _ = _; omega
  obtain ⟨s5, k4⟩ := fdAll_fails (fl := failsFrom s3.tick) (e := e) (d := d) (by omega) B s4 (fun n hn => by
    show (if n < s3.tick then none else some 0) ≠ none
    rw [if_neg (by omega)]
    exact fun h => by cases h) g3 (by omega) (by omega)
  refine ⟨s3.tick, fDrop (failsFrom s3.tick) e s5, ?_⟩
  have hem : fdEmit (newAtomsWrD p atoms) (failsFrom s3.tick) e s3 = (.err .io d, s5) := by
    unfold fdEmit
    rw [g1, k1, k4]
  have hall : (fdBefore mdatPos moov p oldLen >>= fun _ =>
      (do quietF (fSeekStart p.newAtomsStart); fdEmit (newAtomsWrD p atoms); fdAfter p moved)) (failsFrom s3.tick) e s0 = (.err .io d, s5) := by
    rw [← FD.assoc, FD.bind_ok hpre']
    exact FD.bind_err hem
  rw [hall]

/-! ### What is written anew -/

theorem mkPlan_new {e : Env} {moov atoms p} (h : mkPlan moov atoms e = .ok p) :
    (moov.udta = none ∧ p.newUdta = some (some ⟨some metaHdlr, some atoms⟩)) ∨
    (∃ u, moov.udta = some u ∧ u.meta? = none ∧ p.newUdta = none ∧ p.newMeta = some ⟨some metaHdlr, some atoms⟩) ∨
    (∃ u m, moov.udta = some u ∧ u.meta? = some m ∧ p.newUdta = none ∧ p.newMeta = none ∧
      (p.newHdlr = none ∨ p.newHdlr = some metaHdlr)) := by
  obtain ⟨mb, tr, ud⟩ := moov
  match ud with
  | none =>
    simp only [mkPlan, Option.bind_none] at h
    obtain ⟨a1, h1, k1⟩ := E.bind_inv h
    obtain ⟨a2, h2, k2⟩ := E.bind_inv k1
    obtain ⟨a3, h3, k3⟩ := E.bind_inv k2
    obtain ⟨d, h5, k5⟩ := E.bind_inv k3
    obtain rfl := E.pure_inv k5
    exact .inl ⟨rfl, rfl⟩
  | some ⟨bu, none⟩ =>
    simp only [mkPlan, Option.bind_some] at h
    obtain ⟨a1, h1, k1⟩ := E.bind_inv h
    obtain ⟨a2, h2, k2⟩ := E.bind_inv k1
    obtain ⟨a3, h3, k3⟩ := E.bind_inv k2
    obtain ⟨d, h5, k5⟩ := E.bind_inv k3
    obtain rfl := E.pure_inv k5
    exact .inr (.inl ⟨_, rfl, rfl, rfl, rfl⟩)
  | some ⟨bu, some ⟨bm, hd, x⟩⟩ =>
    simp only [mkPlan, Option.bind_some] at h
    obtain ⟨a1, h1, k1⟩ := E.bind_inv h
    obtain ⟨a2, h2, k2⟩ := E.bind_inv k1
    obtain ⟨a3, h3, k3⟩ := E.bind_inv k2
    obtain ⟨d, h5, k5⟩ := E.bind_inv k3
    obtain rfl := E.pure_inv k5
    refine .inr (.inr ⟨_, _, rfl, rfl, rfl, rfl, ?_⟩)
    dsimp only
    split
    · exact .inr rfl
    · exact .inl rfl

theorem lastUdta_at (m : Spec.Moov) (p : Nat) :
    (m.lastUdta = none → lastAt MoovKid.box udtaAt p m = none) ∧
    ∀ u, m.lastUdta = some u → ∃ q b, lastAt MoovKid.box udtaAt p m = some (udtaB q b u) := by
  refine ⟨fun h => ?_, fun u h => ?_⟩
  · unfold Spec.Moov.lastUdta at h
    rw [List.getLast?_eq_none_iff, List.filterMap_eq_nil_iff] at h
    refine lastAt_none (fun k hk q => ?_) p
    have := h k hk
    cases k with
    | udta ext u => cases this
    | _ => rfl
  · obtain ⟨A, k, B, rfl, hk, hB⟩ := getLast_sel h
    cases k with
    | udta ext v =>
      injection hk with hk
      subst hk
      refine ⟨_, _, lastAt_split rfl fun k hk q => ?_⟩
      have := hB k hk
      cases k with
      | udta ext u => cases this
      | _ => rfl
    | _ => cases hk

theorem lastMeta_at (u : Udta) (q : Nat) (b : Box) :
    (u.lastMeta = none → (udtaB q b u).meta? = none) ∧ ∀ m, u.lastMeta = some m → ∃ x, (udtaB q b u).meta? = some x := by
  refine ⟨fun h => ?_, fun m h => ?_⟩
  · unfold Udta.lastMeta at h
    rw [List.getLast?_eq_none_iff, List.filterMap_eq_nil_iff] at h
    refine lastAt_none (fun k hk q => ?_) _
    have := h k hk
    cases k with
    | node ext u => cases this
    | raw b => rfl
  · obtain ⟨A, k, B, rfl, hk, hB⟩ := getLast_sel h
    cases k with
    | node ext v =>
      refine ⟨_, lastAt_split rfl fun k hk q => ?_⟩
      have := hB k hk
      cases k with
      | node ext u => cases this
      | raw b => rfl
    | raw b => cases hk

theorem tags_ilst_eq {d : Str} (atoms : List AtomData) (h : d = whileWriting [ITEM_LIST] []) : Tags (· = d) (writeIlstD atoms) :=
  .within (T' := (· = [])) (.quiet (.writeIlst atoms) rfl) fun x hx => by
    rw [hx, h]; exact (writing_cons ITEM_LIST [] []).symm

theorem late_meta_eq {d : Str} (atoms : List AtomData) (h : d = whileWriting [METADATA, ITEM_LIST] []) :
    Late 61 (· = d) (writeMetaD ⟨some metaHdlr, some atoms⟩) :=
  .within (T' := (· = whileWriting [ITEM_LIST] [])) (.bind (a := 16) (b := 45) (.writeHead _) fun _ =>
    .bind (a := 4) (b := 41) (.writeFullHead _ rfl) fun _ =>
    .bind (a := 41) (b := 0) (.writeHdlr (n := 25) rfl) fun _ => .of (tags_ilst_eq atoms rfl)) fun x hx => by
    rw [hx, h]; exact (writing_cons _ _ _).symm

theorem total_eq (m : WrD Unit) (e : Env) : total (m e).1 = ((WrD.forget m e).1.flatten).length := by
  unfold total WrD.forget
  rw [List.length_flatten, List.map_map]
  rfl

theorem total_emits {m : WrD Unit} {w : Wr Unit} {b : Bytes} (hw : WrD.forget m = w) (h : Emits w b) (e : Env) :
    total (m e).1 = b.length := by
  obtain ⟨cs, h1, h2⟩ := h e
  rw [total_eq, hw, h1]
  exact congrArg List.length h2

theorem mkBox_ge (f : Fourcc) (b : Bytes) : b.length ≤ (mkBox f b).ser.length := by
  rw [Box.ser_length, show (mkBox f b).body = b from rfl]
  omega

theorem newAtoms_late {e : Env} {q : Nat} {b : Box} {f : File} {atoms : List AtomData} {p : Plan} (hs : ∀ a ∈ atoms, Storable a)
    (h : mkPlan (moovB q b f.moov) atoms e = .ok p) : Late 77 (· = whileWriting f.newItemPath []) (newAtomsWrD p atoms) ∧
      (ilstBox atoms).ser.length ≤ total (newAtomsWrD p atoms e).1 := by
  have hm := newMeta_ser_length atoms
  unfold File.newItemPath
  obtain ⟨n1, n2⟩ := lastUdta_at f.moov (q + b.headLen)
  rcases mkPlan_new h with ⟨h1, h2⟩ | ⟨u, h1, h2, h3, h4⟩ | ⟨u, m, h1, h2, h3, h4, h5⟩
  · cases hu : f.moov.lastUdta with
    | some u =>
      obtain ⟨q', b', h'⟩ := n2 u hu
      rw [show (moovB q b f.moov).udta = some _ from h'] at h1
      cases h1
    | none =>
      dsimp only
      have e1 : newAtomsWrD p atoms = writeUdtaD (some ⟨some metaHdlr, some atoms⟩) := by unfold newAtomsWrD; rw [h2]
      rw [e1]
      refine ⟨.within (T' := (· = whileWriting [METADATA, ITEM_LIST] [])) (.bind (a := 16) (b := 61) (.writeHead _) fun _ =>
        late_meta_eq atoms rfl) fun x hx => ?_, ?_⟩
      · rw [hx]; exact (writing_cons _ _ _).symm
      · rw [total_emits (writeUdtaD_forget _) (writeUdta_emits hs).2]
        have g1 := mkBox_ge (cc 'u' 'd' 't' 'a') (newUdta atoms).ser
        have g2 := mkBox_ge (cc 'm' 'e' 't' 'a') (newMeta atoms).ser
        rw [newUdta_ser] at g1 ⊢
        omega
  · cases hu : f.moov.lastUdta with
    | none => rw [show (moovB q b f.moov).udta = none from n1 hu] at h1; cases h1
    | some v =>
      obtain ⟨q', b', h'⟩ := n2 v hu
      rw [show (moovB q b f.moov).udta = some _ from h'] at h1
      injection h1 with h1
      subst h1
      obtain ⟨m1, m2⟩ := lastMeta_at v q' b'
      dsimp only
      cases hv : v.lastMeta with
      | some m =>
        obtain ⟨x, hx⟩ := m2 m hv
        rw [hx] at h2
        cases h2
      | none =>
        dsimp only
        have e1 : newAtomsWrD p atoms = writeMetaD ⟨some metaHdlr, some atoms⟩ := by unfold newAtomsWrD; rw [h3, h4]
        rw [e1]
        refine ⟨(late_meta_eq atoms rfl).mono (by omega), ?_⟩
        rw [total_emits (writeMetaD_forget _) (writeMeta_emits hs).2]
        have g2 := mkBox_ge (cc 'm' 'e' 't' 'a') (newMeta atoms).ser
        omega
  · cases hu : f.moov.lastUdta with
    | none => rw [show (moovB q b f.moov).udta = none from n1 hu] at h1; cases h1
    | some v =>
      obtain ⟨q', b', h'⟩ := n2 v hu
      rw [show (moovB q b f.moov).udta = some _ from h'] at h1
      injection h1 with h1
      subst h1
      obtain ⟨m1, m2⟩ := lastMeta_at v q' b'
      dsimp only
      cases hv : v.lastMeta with
      | none => rw [m1 hv] at h2; cases h2
      | some m' =>
        dsimp only
        have e1 : newAtomsWrD p atoms = (do wrOptD writeHdlrD p.newHdlr; writeIlstD atoms) := by unfold newAtomsWrD; rw [h3, h4]
        rw [e1]
        have hi := total_emits (writeIlstD_forget atoms) (writeIlst_emits hs) e
        rcases h5 with h5 | h5
        · rw [h5]
          exact ⟨(Late.bind (a := 0) (b := 0) (.pure _) fun _ => .of (tags_ilst_eq _ rfl)).mono (by omega), Nat.le_of_eq hi.symm⟩
        · rw [h5]
          refine ⟨(Late.bind (a := 41) (b := 0) (.writeHdlr (n := 25) rfl) fun _ => .of (tags_ilst_eq _ rfl)).mono (by omega), ?_⟩
          rw [total_emits (b := hdlrBox.ser ++ (ilstBox atoms).ser) (w := (do writeHdlr metaHdlr; writeIlst atoms)) ?_
            (.seq writeHdlr_emits (writeIlst_emits hs)), List.length_append]
          · omega
          · simp only [WrD.forget_bind, wrOptD, writeHdlrD_forget, writeIlstD_forget]

/-- For every file, an error can occur while the item list is written, if it does not fit into the buffer. -/
theorem write_occurs {e : Env} {X : Bytes} {f : File} {atoms : List AtomData} (hF : Fit e (X ++ f.ser)) (hw : f.WF)
    (hs : ∀ a ∈ atoms, Storable a) (hok : (writeTagTo e (X ++ f.ser) X.length atoms).1 = .ok ()) (hc : 128 ≤ e.cap)
    (hl : e.cap < (ilstBox atoms).ser.length) :
    ∃ n s, writeTagD (failsFrom n) e (X ++ f.ser) X.length atoms = (.err .io (whileWriting f.newItemPath []), s) := by
  have h1 : (writeTagD Faults.none e (X ++ f.ser) X.length atoms).1.forget = .ok () := by
    rw [(writeTagD_forget Faults.none rfl _ _ _ _).1]
    rcases writeTagF_sim Faults.none e (X ++ f.ser) X.length atoms with ⟨-, -, h, -⟩ | ⟨h, -⟩ | ⟨h, -⟩ | ⟨h, -⟩
    · rw [h, hok]
    · cases h
    · exact absurd (fun _ _ => rfl) h
    · exact absurd (fun _ _ => rfl) h
  have h2 : (writeTagD Faults.none e (X ++ f.ser) X.length atoms).1 = .ok () := by
    cases hr : (writeTagD Faults.none e (X ++ f.ser) X.length atoms).1 with
    | ok a => rfl
    | err k d => rw [hr] at h1; cases h1
    | panic => rw [hr] at h1; cases h1
    | fuel => rw [hr] at h1; cases h1
  obtain ⟨x, hprep⟩ : ∃ x, preparePhaseD atoms e (X ++ f.ser) X.length = .ok x := by
    unfold writeTagD at h2
    cases hr : preparePhaseD atoms e (X ++ f.ser) X.length with
    | ok x => exact ⟨x, rfl⟩
    | err k d => rw [hr] at h2; cases h2
    | panic => rw [hr] at h2; cases h2
    | fuel => rw [hr] at h2; cases h2
  obtain ⟨⟨mdatPos, moov, p, oldLen, moved⟩, q⟩ := x
  have hpr : preparePhase atoms e (X ++ f.ser) X.length = .ok ((mdatPos, moov, p, oldLen, moved), q) := by
    rw [← preparePhaseD_forget, ← D.forget_apply, hprep]
    rfl
  have hplan : mkPlan (moovB (f.moovPos X.length) f.moovBox f.moov) atoms e = .ok p := by
    unfold preparePhase at hpr
    rw [P.bind_ok (findTop_at hF hw rfl)] at hpr
    obtain ⟨p', q2, h3, k2⟩ := P.bind_inv hpr
    obtain ⟨ol', q3, -, k3⟩ := P.bind_inv k2
    obtain ⟨ml, q4, -, k4⟩ := P.bind_inv k3
    obtain ⟨_, q5, -, k5⟩ := P.bind_inv k4
    obtain ⟨_, q6, -, k6⟩ := P.bind_inv k5
    obtain ⟨mv, q7, -, k7⟩ := P.bind_inv k6
    cases k7
    exact (E.p_inv h3).1
  obtain ⟨hl1, hl2⟩ := newAtoms_late hs hplan
  exact write_fails hprep (Prod.ext h2 rfl) hl1 (by omega) (by omega)

/-! ### The chunk offset tables -/

/-- A file with a chunk offset table `fc` with the content `body` and media data behind the movie atom. -/
def tableFile (fc : Fourcc) (body : Bytes) : File where
  ftypExt := false
  ftyp := []
  pre := []
  moovExt := false
  moov := [.trak false [.node false [.node false [.node false [⟨false, fc, body⟩]]]]]
  post := [⟨false, cc 'm' 'd' 'a' 't', []⟩]

/-- A table with version `v` and `n` entries, which are missing. -/
def tableBody (v : UInt8) (n : Nat) : Bytes := v :: [0, 0, 0] ++ be32 n

theorem tableFile_length (fc : Fourcc) (v : UInt8) (n : Nat) : (tableFile fc (tableBody v n)).ser.length = 72 := by
  obtain ⟨a, b, c, d⟩ := fc
  rfl

theorem tableFile_WF (fc : Fourcc) (v : UInt8) (n : Nat) : (tableFile fc (tableBody v n)).WF := by
  obtain ⟨a, b, c, d⟩ := fc
  refine ⟨fun _ => (by decide : 0 + 8 < 2^32), fun _ => (by decide : 48 + 8 < 2^32), ?_, fun b h => (by cases h), fun b h => ?_⟩
  · intro k hk
    rw [show k = _ from List.mem_singleton.mp hk]
    refine ⟨fun _ => (by decide : 40 + 8 < 2^32), fun k hk => ?_⟩
    rw [show k = _ from List.mem_singleton.mp hk]
    refine ⟨fun _ => (by decide : 32 + 8 < 2^32), fun k hk => ?_⟩
    rw [show k = _ from List.mem_singleton.mp hk]
    refine ⟨fun _ => (by decide : 24 + 8 < 2^32), fun k hk => ?_⟩
    rw [show k = _ from List.mem_singleton.mp hk]
    refine ⟨fun _ => (by decide : 16 + 8 < 2^32), fun k hk => ?_⟩
    rw [show k = _ from List.mem_singleton.mp hk]
    exact fun _ => (by decide : 8 + 8 < 2^32)
  · rw [show b = _ from List.mem_singleton.mp h]
    exact ⟨fun _ => by decide, by decide⟩

theorem table_prepare {e : Env} (hr : Roomy e) (hf : 100 < e.fuel) {t : TableKind} (ht : t = stcoKind ∨ t = co64Kind) (v : UInt8) (n : Nat) :
    ∃ mdatPos moov p oldLen moved q x, preparePhaseD [] e (tableFile t.fourcc (tableBody v n)).ser 0 = .ok ((mdatPos, moov, p, oldLen, moved), q) ∧
      mdatPos > moov.bounds.pos ∧ stblAtoms moov = [⟨x, if t.width = 4 then some ⟨48, ⟨false, 16⟩⟩ else none,
        if t.width = 4 then none else some ⟨48, ⟨false, 16⟩⟩⟩] := by
  have hlen := tableFile_length t.fourcc v n
  have hw := tableFile_WF t.fourcc v n
  have hF : Fit e ([] ++ (tableFile t.fourcc (tableBody v n)).ser) := by
    have := hr.pos
    exact ⟨by rw [List.nil_append, hlen]; omega, by rw [List.nil_append, hlen]; omega, by rw [List.nil_append, hlen]; omega⟩
  have hp := mkPlan_moov (mb := moovB 8 (tableFile t.fourcc (tableBody v n)).moovBox (tableFile t.fourcc (tableBody v n)).moov)
    (atoms := []) (e := e) (q := 8) (sz := (tableFile t.fourcc (tableBody v n)).moovBox.size) rfl
    (lastAt_none (fun k hk q => by rw [show k = _ from List.mem_singleton.mp hk]; rfl) _)
    (by show 8 + 56 < 2^62; omega) (by decide +kernel)
  obtain ⟨c, hc⟩ := preparePhase_at (e := e) (X := []) (atoms := []) hF hw hp (by rw [List.nil_append, hlen]; show 8 + 56 ≤ 72; omega)
  have hd := D.ok_of_forget (m := preparePhaseD []) (by rw [preparePhaseD_forget]; exact hc)
  refine ⟨_, _, _, _, _, _, ⟨40, ⟨false, 24⟩⟩, hd, (mdatPos_gt _ _).mpr ⟨_, List.mem_singleton.mpr rfl, rfl⟩, ?_⟩
  rcases ht with rfl | rfl
  · rfl
  · rfl

theorem table_result {e : Env} (hr : Roomy e) (hf : 100 < e.fuel) {t : TableKind} (ht : t = stcoKind ∨ t = co64Kind) (v : UInt8) (n : Nat)
    (fl : Faults) {k : ErrKind} {d : Str} {s : FSt} (h : fdRead t.faultTexts 56 (parseTableD t ⟨false, 16⟩) fl e
      { file := (tableFile t.fourcc (tableBody v n)).ser, cur := e.rcur 0 } = (.err k d, s)) :
    (writeTagD fl e (tableFile t.fourcc (tableBody v n)).ser 0 []).1 = .err k d := by
  obtain ⟨mdatPos, moov, p, oldLen, moved, q, x, h1, h2, h3⟩ := table_prepare hr hf ht v n
  unfold writeTagD
  rw [h1]
  dsimp only
  rw [fdWritePhase_split]
  have hpos : (⟨48, ⟨false, 16⟩⟩ : AtomBounds).contentPos e = .ok 56 := rfl
  have hq : ∀ s, quietF (⟨48, ⟨false, 16⟩⟩ : AtomBounds).contentPos.fw fl e s = (.ok 56, s) := fun s => by
    show (Out.say [] ((⟨48, ⟨false, 16⟩⟩ : AtomBounds).contentPos e), s) = _
    rw [hpos]
    rfl
  have ht' : ∀ diff, fdPatchTable t diff ⟨48, ⟨false, 16⟩⟩ fl e { file := (tableFile t.fourcc (tableBody v n)).ser, cur := e.rcur 0 } = (.err k d, s) := by
    intro diff
    unfold fdPatchTable
    rw [FD.bind_ok (hq _)]
    exact FD.bind_err h
  have hs : fdAll (fdPatchStbl p.lenDiff) (stblAtoms moov) fl e { file := (tableFile t.fourcc (tableBody v n)).ser, cur := e.rcur 0 } = (.err k d, s) := by
    rw [h3, fdAll]
    refine FD.bind_err ?_
    unfold fdPatchStbl
    rcases ht with rfl | rfl
    · exact FD.bind_err (ht' _)
    · exact (FD.bind_ok (s' := _) (a := ()) rfl).trans (ht' _)
  have hb : fdBefore mdatPos moov p oldLen fl e { file := (tableFile t.fourcc (tableBody v n)).ser, cur := e.rcur 0 } = (.err k d, s) := by
    unfold fdBefore
    rw [if_pos h2]
    exact FD.bind_err hs
  rw [FD.bind_err hb]

theorem tableFile_at (fc : Fourcc) (v : UInt8) (n : Nat) : At (tableFile fc (tableBody v n)).ser 56 (v :: [0, 0, 0] ++ be32 n) := by
  obtain ⟨a, b, c, d⟩ := fc
  exact ⟨by rw [tableFile_length]; show 56 + 8 ≤ 72; omega, rfl⟩

/-- The table is read. -/
theorem table_read {e : Env} (hr : Roomy e) (t : TableKind) (v : UInt8) (n : Nat) {fl : Faults} (hfl : fl.call 0 = none)
    {k : ErrKind} {d : Str} (h : ∀ F q, At F q (v :: [0, 0, 0] ++ be32 n) → parseTableD t ⟨false, 16⟩ e F q = .err k d) :
    ∃ s, fdRead t.faultTexts 56 (parseTableD t ⟨false, 16⟩) fl e { file := (tableFile t.fourcc (tableBody v n)).ser, cur := e.rcur 0 } = (.err k d, s) := by
  have hpos := hr.pos
  unfold fdRead
  dsimp only
  rw [show fl.call (FSt.tick { file := (tableFile t.fourcc (tableBody v n)).ser, cur := e.rcur 0 }) = none from hfl]
  dsimp only
  rw [D.bind_ok (a := ()) (q := 56) (quiet_ok (by rw [seekStart, if_pos (by omega)])), h _ _ (tableFile_at t.fourcc v n)]
  exact ⟨_, rfl⟩

theorem table_size {e : Env} {t : TableKind} (hw : 0 < t.width) {F : Bytes} {q : Nat} (h : At F q (0 :: [0, 0, 0] ++ be32 1)) :
    parseTableD t ⟨false, 16⟩ e F q = .err .parsing (parsingText t.fourcc ++ t.sizeText) := by
  refine within_err ?_
  rw [D.bind_ok (full_ok h.left rfl)]
  dsimp only
  rw [if_pos rfl, D.bind_ok (quiet_ok (readU32_at (h.right (n := 4) rfl) (by decide) e)),
    D.bind_ok (quiet_ok (E.p_ok (show Size.contentLen ⟨false, 16⟩ e = .ok 8 from rfl) _ _)), if_pos (by omega)]
  rfl

theorem table_version {e : Env} {t : TableKind} {v : UInt8} (hv : v ≠ 0) {n : Nat} {F : Bytes} {q : Nat} (h : At F q (v :: [0, 0, 0] ++ be32 n)) :
    parseTableD t ⟨false, 16⟩ e F q = .err (.unknownVersion v) (parsingText t.fourcc ++ t.versionText) := by
  refine within_err ?_
  rw [D.bind_ok (full_ok h.left rfl)]
  dsimp only
  rw [if_neg hv]
  rfl

theorem parsing_one (f : Fourcc) (d : Str) : whileParsing [f] d = parsingText f ++ d := parsing_cons f [] d

/-- Each error of a table occurs. -/
theorem table_occurs {e : Env} (hr : Roomy e) (hf : 100 < e.fuel) {f : Fourcc} {k : ErrKind} {d : Str} (h : TableFault f k d) :
    ∃ fl F, (writeTagD fl e F 0 []).1 = .err k (whileParsing [f] d) := by
  have fault : ∀ (t : TableKind) n, t = stcoKind ∨ t = co64Kind →
      ∃ fl F, (writeTagD fl e F 0 []).1 = .err .io (t.faultTexts.getD n []) := fun t n ht =>
    ⟨⟨fun _ => some n, false⟩, _, table_result hr hf ht 0 0 _ rfl⟩
  have read : ∀ (t : TableKind) (v : UInt8) n k d, t = stcoKind ∨ t = co64Kind →
      (∀ F q, At F q (v :: [0, 0, 0] ++ be32 n) → parseTableD t ⟨false, 16⟩ e F q = .err k d) →
      ∃ fl F, (writeTagD fl e F 0 []).1 = .err k d := fun t v n k d ht h => by
    obtain ⟨s, hs⟩ := table_read hr t v n (fl := Faults.none) rfl h
    exact ⟨Faults.none, _, table_result hr hf ht v n _ hs⟩
  rw [parsing_one]
  cases h with
  | full hf h =>
    rcases hf with rfl | rfl
    · cases h with
      | version => exact fault stcoKind 1 (.inl rfl)
      | flags => exact fault stcoKind 2 (.inl rfl)
    · cases h with
      | version => exact fault co64Kind 1 (.inr rfl)
      | flags => exact fault co64Kind 2 (.inr rfl)
  | io hf =>
    rw [List.append_nil]
    rcases hf with rfl | rfl
    · exact fault stcoKind 3 (.inl rfl)
    · exact fault co64Kind 3 (.inr rfl)
  | stcoSize => exact read stcoKind 0 1 _ _ (.inl rfl) fun F q h => table_size (by decide) h
  | co64Size => exact read co64Kind 0 1 _ _ (.inr rfl) fun F q h => table_size (by decide) h
  | stcoVersion v h0 => exact read stcoKind v 0 _ _ (.inl rfl) fun F q h => table_version h0 h
  | co64Version v h0 => exact read co64Kind v 0 _ _ (.inr rfl) fun F q h => table_version h0 h

end Mp4
