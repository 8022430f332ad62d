import Verif.Model.Fault
import Verif.Proof.Fail
import Verif.Proof.WriteSpec
/-
Writing with failing I/O calls: as long as no call fails it does what Model/Write.lean does, and what an error leaves
behind.
-/
namespace Mp4
open Spec

/-- None of the calls so far has failed. -/
def Intact (fl : Faults) (s : FSt) : Prop := ∀ k, k < s.tick → fl.call k = none

theorem Intact.next {fl : Faults} {s s' : FSt} (h : Intact fl s) (ht : s'.tick = s.tick + 1) (hc : fl.call s.tick = none) : Intact fl s' := by
  intro k hk
  rcases Nat.lt_or_ge k s.tick with h' | h'
  · exact h k h'
  · rwa [show k = s.tick by omega]

theorem Intact.fail {fl : Faults} {s s' : FSt} {n} (ht : s'.tick = s.tick + 1) (hc : fl.call s.tick = some n) : ¬ Intact fl s' := by
  intro h
  rw [h s.tick (by omega)] at hc
  cases hc

/-- Either nothing failed and the result is that of `w`, or a call failed and the result is an I/O error. -/
def FSim {α} (m : FW α) (w : W α) : Prop := ∀ fl e (s : FSt), Intact fl s →
  (Intact fl (m fl e s).2 ∧ (m fl e s).1 = (w e s.toWSt).1 ∧ (m fl e s).2.toWSt = (w e s.toWSt).2) ∨
  (¬ Intact fl (m fl e s).2 ∧ (m fl e s).1 = .err .io)

theorem FW.bind_def {α β} (m : FW α) (f : α → FW β) (fl e s) : (m >>= f) fl e s = FW.bind m f fl e s := rfl

theorem FSim.bind {α β} {m : FW α} {w : W α} {f : α → FW β} {g : α → W β} (h1 : FSim m w) (h2 : ∀ a, FSim (f a) (g a)) :
    FSim (m >>= f) (w >>= g) := by
  intro fl e s hs
  show _ ∨ _
  rw [FW.bind_def]
  show (Intact fl (FW.bind m f fl e s).2 ∧ (FW.bind m f fl e s).1 = (W.bind w g e s.toWSt).1 ∧
    (FW.bind m f fl e s).2.toWSt = (W.bind w g e s.toWSt).2) ∨ _
  rw [FW.bind, W.bind]
  have h := h1 fl e s hs
  rcases hm : m fl e s with ⟨r, s'⟩
  rcases hw : w e s.toWSt with ⟨r', t'⟩
  rw [hm, hw] at h
  dsimp only at h ⊢
  rcases h with ⟨hf, he, ht⟩ | ⟨hf, he⟩
  · subst he ht
    cases r with
    | ok a => exact h2 a fl e s' hf
    | err k => exact .inl ⟨hf, rfl, rfl⟩
    | panic => exact .inl ⟨hf, rfl, rfl⟩
    | fuel => exact .inl ⟨hf, rfl, rfl⟩
  · subst he
    exact .inr ⟨hf, rfl⟩

theorem FSim.pure {α} (a : α) : FSim (Pure.pure a : FW α) (Pure.pure a) := fun _ _ _ hs => .inl ⟨hs, rfl, rfl⟩

theorem FSim.E {α} (m : E α) : FSim m.fw m.w := fun _ _ _ hs => .inl ⟨hs, rfl, rfl⟩

/-- `flush_buf` without failures. -/
def wFlushBuf : W Unit := fun _ s => (.ok (), s.flushBuf)

theorem flushBuf_nil {s : WSt} (h : s.buf = []) : s.flushBuf = s := by
  unfold WSt.flushBuf WSt.sysWrite
  rcases s with ⟨f, c, b, t⟩
  dsimp only at h
  subst h
  rfl

theorem FSim.flushBuf : FSim fFlushBuf wFlushBuf := by
  intro fl e s hs
  unfold fFlushBuf wFlushBuf
  split
  · rename_i h
    exact .inl ⟨hs, rfl, (flushBuf_nil (List.isEmpty_iff.mp h)).symm⟩
  · split
    · rename_i hc
      exact .inl ⟨hs.next rfl hc, rfl, rfl⟩
    · rename_i hc
      exact .inr ⟨Intact.fail rfl hc, rfl⟩

theorem FSim.sysWrite (b : Bytes) : FSim (fSysWrite b) (fun _ s => (.ok (), s.sysWrite b)) := by
  intro fl e s hs
  unfold fSysWrite
  split
  · rename_i h
    refine .inl ⟨hs, rfl, ?_⟩
    simp only [WSt.sysWrite, h, if_true]
  · split
    · rename_i hc
      exact .inl ⟨hs.next rfl hc, rfl, rfl⟩
    · rename_i hc
      exact .inr ⟨Intact.fail rfl hc, rfl⟩

theorem FSim.congr {α} {m : FW α} {w w' : W α} (h : FSim m w) (hw : ∀ e s, w e s = w' e s) : FSim m w' := by
  intro fl e s hs
  rw [← hw]
  exact h fl e s hs

theorem FSim.writeAll (b : Bytes) : FSim (fWriteAll b) (wWriteAll b) := by
  intro fl e s hs
  unfold fWriteAll wWriteAll
  by_cases h1 : b.length < e.cap - s.buf.length
  · rw [if_pos h1, if_pos h1]
    exact .inl ⟨hs, rfl, rfl⟩
  · rw [if_neg h1, if_neg h1]
    have h2 : FSim (fWriteDirect b) (fun e s => if b.length ≥ e.cap then (.ok (), s.sysWrite b) else (.ok (), { s with buf := s.buf ++ b })) := by
      intro fl e s hs
      unfold fWriteDirect
      dsimp only
      split
      · exact FSim.sysWrite b fl e s hs
      · exact .inl ⟨hs, rfl, rfl⟩
    by_cases h3 : b.length > e.cap - s.buf.length
    · have := FSim.bind FSim.flushBuf (fun _ => h2) fl e s hs
      simp only [if_pos h3]
      exact this
    · have := h2 fl e s hs
      simp only [if_neg h3]
      exact this

theorem FSim.flush : FSim fFlush wFlush := FSim.flushBuf

theorem FSim.seekStart (n : Nat) : FSim (fSeekStart n) (wSeekStart n) := by
  refine (FSim.bind (g := fun _ e s => if n ≤ e.maxPos then (.ok (), { s with cur := n }) else (.err .io, s)) FSim.flushBuf
    fun _ fl e s hs => ?_).congr fun e s => rfl
  dsimp only
  split <;> exact .inl ⟨hs, rfl, rfl⟩

theorem FSim.seekCur (n : Nat) : FSim (fSeekCur n) (wSeekCur n) := by
  refine (FSim.bind (g := fun _ e s => if s.cur + n ≤ e.maxPos then (.ok (), { s with cur := s.cur + n }) else (.err .io, s)) FSim.flushBuf
    fun _ fl e s hs => ?_).congr fun e s => rfl
  dsimp only
  split <;> exact .inl ⟨hs, rfl, rfl⟩

theorem FSim.setLen (n : Nat) : FSim (fSetLen n) (wSetLen n) := by
  intro fl e s hs
  unfold fSetLen wSetLen
  split
  · split
    · rename_i hc
      exact .inl ⟨hs.next rfl hc, rfl, rfl⟩
    · rename_i hc
      exact .inr ⟨Intact.fail rfl hc, rfl⟩
  · exact .inl ⟨hs, rfl, rfl⟩

theorem FSim.read {α} (pos : Nat) (p : P α) : FSim (fRead pos p) (wRead pos p) := by
  intro fl e s hs
  unfold fRead wRead
  dsimp only
  split
  · rename_i hc
    split <;> rename_i h <;> rw [h] <;> exact .inl ⟨hs.next rfl hc, rfl, rfl⟩
  · rename_i hc
    exact .inr ⟨Intact.fail rfl hc, rfl⟩

theorem FSim.all {α} {f : α → FW Unit} {g : α → W Unit} (h : ∀ a, FSim (f a) (g a)) : ∀ l, FSim (fAll f l) (wAll g l)
  | [] => .pure ()
  | x :: xs => .bind (h x) fun _ => FSim.all h xs

theorem FSim.emit (m : Wr Unit) : FSim (fEmit m) (wEmit m) := by
  intro fl e s hs
  unfold fEmit wEmit
  have h := FSim.all FSim.writeAll (m e).1 fl e s hs
  dsimp only
  rcases hm : fAll fWriteAll (m e).1 fl e s with ⟨r, s'⟩
  rcases hw : wAll wWriteAll (m e).1 e s.toWSt with ⟨r', t'⟩
  rw [hm, hw] at h
  dsimp only at h
  rcases h with ⟨hf, he, ht⟩ | ⟨hf, he⟩
  · subst he ht
    cases r <;> exact .inl ⟨hf, rfl, rfl⟩
  · subst he
    exact .inr ⟨hf, rfl⟩

theorem FSim.opt {α} {f : α → FW Unit} {g : α → W Unit} (h : ∀ a, FSim (f a) (g a)) : ∀ x, FSim (fOpt f x) (wOpt g x)
  | none => .pure ()
  | some a => h a

theorem FSim.patchTable (w : Nat) (d : Int) (a : AtomBounds) : FSim (fPatchTable w d a) (patchTable w d a) :=
  .bind (.E _) fun _ => .bind (.read _ _) fun _ => .bind (.seekStart _) fun _ =>
    .bind (.all (fun _ => .bind (.E _) fun _ => .writeAll _) _) fun _ => .flush

theorem FSim.patchStbl (d : Int) (s : StblBounds) : FSim (fPatchStbl d s) (patchStbl d s) :=
  .bind (.opt (.patchTable 4 d) _) fun _ => .opt (.patchTable 8 d) _

theorem FSim.patchHead (d : Int) (a : AtomBounds) : FSim (fPatchHead d a) (patchHead d a) := by
  refine .bind (.E _) fun _ => .bind (.seekStart _) fun _ => ?_
  split
  · exact .bind (.writeAll _) fun _ => .bind (.seekCur _) fun _ => .writeAll _
  · exact .writeAll _

theorem FSim.writePhase (mp : Nat) (moov : MoovBounds) (p : Plan) (ol : Nat) (moved : Bytes) (atoms : List AtomData) :
    FSim (fWritePhase mp moov p ol moved atoms) (writePhase mp moov p ol moved atoms) := by
  have hrest := FSim.bind (FSim.all (FSim.patchHead p.lenDiff) p.updateAtoms.reverse) fun _ =>
    FSim.bind (FSim.E (addI (asI64 ol) p.lenDiff)) fun n => FSim.bind (FSim.setLen (asU64 n)) fun _ =>
    FSim.bind (FSim.seekStart p.newAtomsStart) fun _ => FSim.bind (FSim.emit (newAtomsWr p atoms)) fun _ =>
    FSim.bind (FSim.E (addI (asI64 p.movedDataStart) p.lenDiff)) fun m => FSim.bind (FSim.seekStart (asU64 m)) fun _ =>
    FSim.bind (FSim.writeAll moved) fun _ => FSim.flush
  unfold fWritePhase Mp4.writePhase
  by_cases h : mp > moov.bounds.pos
  · rw [if_pos h, if_pos h]
    exact .bind (.all (.patchStbl _) _) fun _ => hrest
  · rw [if_neg h, if_neg h]
    exact hrest

/-! ### What an error leaves behind -/

/-- The system calls lead from `F0` to the file and none of them touches a byte in front of `m`, neither would writing what
is in the buffer. -/
structure Safe (F0 : Bytes) (m : Nat) (s : WSt) : Prop where
  replay : s.trace.foldl Op.apply F0 = s.file
  low : ∀ op ∈ s.trace, m ≤ op.lo
  pend : s.buf ≠ [] → m ≤ s.cur

/-- However `c` ends, the state is safe; if it succeeds, `J` holds. -/
def Keeps {α} (F0 : Bytes) (m : Nat) (e : Env) (I : WSt → Prop) (c : FW α) (J : α → WSt → Prop) : Prop := ∀ fl (s : FSt),
  Safe F0 m s.toWSt → I s.toWSt → Safe F0 m (c fl e s).2.toWSt ∧ ∀ a, (c fl e s).1 = .ok a → J a (c fl e s).2.toWSt

theorem Keeps.bind {α β F0 m e I} {J : α → WSt → Prop} {K : β → WSt → Prop} {c : FW α} {f : α → FW β}
    (h1 : Keeps F0 m e I c J) (h2 : ∀ a, Keeps F0 m e (J a) (f a) K) : Keeps F0 m e I (c >>= f) K := by
  intro fl s hs hi
  obtain ⟨k1, k2⟩ := h1 fl s hs hi
  rw [FW.bind_def, FW.bind]
  rcases hc : c fl e s with ⟨r, s'⟩
  rw [hc] at k1 k2
  cases r with
  | ok a => exact h2 a fl s' k1 (k2 a rfl)
  | err k => exact ⟨k1, fun a h => by cases h⟩
  | panic => exact ⟨k1, fun a h => by cases h⟩
  | fuel => exact ⟨k1, fun a h => by cases h⟩

theorem Keeps.conseq {α F0 m e I I'} {J J' : α → WSt → Prop} {c : FW α} (h : Keeps F0 m e I c J) (hi : ∀ s, I' s → I s)
    (hj : ∀ a s, J a s → J' a s) : Keeps F0 m e I' c J' := fun fl s hs h' =>
  ⟨(h fl s hs (hi _ h')).1, fun a ha => hj a _ ((h fl s hs (hi _ h')).2 a ha)⟩

theorem Keeps.pure {α F0 m e I} (a : α) : Keeps F0 m e I (Pure.pure a : FW α) fun _ => I := fun _ _ hs hi => ⟨hs, fun _ _ => hi⟩

theorem Keeps.E {α F0 m e I} {x : E α} : Keeps F0 m e I x.fw fun a s => I s ∧ x e = .ok a := fun _ _ hs hi => ⟨hs, fun _ h => ⟨hi, h⟩⟩

theorem Safe.sysWrite {F0 m s} (h : Safe F0 m s) (hc : m ≤ s.cur) (b : Bytes) : Safe F0 m (s.sysWrite b) := by
  unfold WSt.sysWrite
  split
  · exact h
  · refine ⟨?_, ?_, fun _ => by dsimp only; omega⟩
    · dsimp only
      rw [List.foldl_append, h.replay]; rfl
    · intro op hop
      rcases List.mem_append.mp hop with hop | hop
      · exact h.low op hop
      · rw [List.mem_singleton] at hop
        subst hop
        exact hc

theorem Safe.setBuf {F0 m s} (h : Safe F0 m s) (b : Bytes) (hb : b ≠ [] → m ≤ s.cur) : Safe F0 m { s with buf := b } :=
  ⟨h.replay, h.low, hb⟩

theorem flush_keeps {F0 m e fl} {s : FSt} (h : Safe F0 m s.toWSt) : Safe F0 m (fFlushBuf fl e s).2.toWSt ∧
    s.cur ≤ (fFlushBuf fl e s).2.cur ∧ ((fFlushBuf fl e s).1 = .ok () → (fFlushBuf fl e s).2.buf = []) := by
  unfold fFlushBuf
  split
  · rename_i hb
    exact ⟨h, Nat.le_refl _, fun _ => List.isEmpty_iff.mp hb⟩
  · rename_i hb
    have hc : m ≤ s.cur := h.pend fun h => hb (by rw [h]; rfl)
    split
    · refine ⟨(h.sysWrite hc s.buf).setBuf [] (fun h => absurd rfl h), ?_, fun _ => rfl⟩
      show s.cur ≤ (s.toWSt.sysWrite s.buf).cur
      rw [sysWrite_cur]; omega
    · rename_i n _
      refine ⟨(h.sysWrite hc (s.buf.take n)).setBuf (s.buf.drop n) (fun _ => ?_), ?_, fun h => by cases h⟩
      · rw [sysWrite_cur]; omega
      · show s.cur ≤ (s.toWSt.sysWrite (s.buf.take n)).cur
        rw [sysWrite_cur]; omega

/-- The writer is at or behind `m`. -/
def behind (m : Nat) (s : WSt) : Prop := m ≤ s.cur

/-- Nothing is buffered. -/
def flushed (s : WSt) : Prop := s.buf = []

def anywhere (_ : WSt) : Prop := True

theorem fFlush_keeps {F0 m e I} : Keeps F0 m e I fFlush fun _ => flushed := fun _ _ hs _ =>
  ⟨(flush_keeps hs).1, fun _ ha => (flush_keeps hs).2.2 ha⟩

theorem fFlushBuf_keeps {F0 m e} : Keeps F0 m e (behind m) fFlushBuf fun _ => behind m := fun _ _ hs hi =>
  ⟨(flush_keeps hs).1, fun _ _ => Nat.le_trans hi (flush_keeps hs).2.1⟩

theorem fFlush_keeps' {F0 m e} : Keeps F0 m e (behind m) fFlush fun _ => behind m := fFlushBuf_keeps

theorem fSeekStart_keeps {F0 m e I n} (h : m ≤ n) : Keeps F0 m e I (fSeekStart n) fun _ => behind m := by
  refine Keeps.bind (fFlush_keeps (m := m)) fun _ fl s hs hi => ?_
  show Safe F0 m (if n ≤ e.maxPos then _ else _ : Out Unit × FSt).2.toWSt ∧ ∀ a, (if n ≤ e.maxPos then _ else _ : Out Unit × FSt).1 = .ok a →
    behind m (if n ≤ e.maxPos then _ else _ : Out Unit × FSt).2.toWSt
  split
  · exact ⟨⟨hs.replay, hs.low, fun _ => h⟩, fun _ _ => h⟩
  · exact ⟨hs, fun _ h => by cases h⟩

theorem fSeekCur_keeps {F0 m e n} : Keeps F0 m e (behind m) (fSeekCur n) fun _ => behind m := by
  refine Keeps.bind fFlushBuf_keeps fun _ fl s hs hi => ?_
  have hi : m ≤ s.cur := hi
  show Safe F0 m (if s.cur + n ≤ e.maxPos then _ else _ : Out Unit × FSt).2.toWSt ∧ ∀ a, (if s.cur + n ≤ e.maxPos then _ else _ : Out Unit × FSt).1 = .ok a →
    behind m (if s.cur + n ≤ e.maxPos then _ else _ : Out Unit × FSt).2.toWSt
  split
  · exact ⟨⟨hs.replay, hs.low, fun _ => by dsimp only; omega⟩, fun _ _ => by show m ≤ s.cur + n; omega⟩
  · exact ⟨hs, fun _ h => by cases h⟩

theorem fWriteDirect_keeps {F0 m e b} : Keeps F0 m e (behind m) (fWriteDirect b) fun _ => behind m := by
  intro fl s hs hi
  have hi' : m ≤ s.cur := hi
  unfold fWriteDirect
  split
  · unfold fSysWrite
    split
    · exact ⟨hs, fun _ _ => hi⟩
    · split
      · refine ⟨hs.sysWrite hi _, fun _ _ => ?_⟩
        show m ≤ (s.toWSt.sysWrite b).cur
        rw [sysWrite_cur]; omega
      · exact ⟨hs.sysWrite hi _, fun _ h => by cases h⟩
  · exact ⟨hs.setBuf _ (fun _ => hi), fun _ _ => hi⟩

theorem fWriteAll_keeps {F0 m e b} : Keeps F0 m e (behind m) (fWriteAll b) fun _ => behind m := by
  intro fl s hs hi
  unfold fWriteAll
  split
  · exact ⟨hs.setBuf _ (fun _ => hi), fun _ _ => hi⟩
  · split
    · exact Keeps.bind fFlushBuf_keeps (fun _ => fWriteDirect_keeps) fl s hs hi
    · exact fWriteDirect_keeps fl s hs hi

theorem fSetLen_keeps {F0 m e I n} (h : m ≤ n) : Keeps F0 m e I (fSetLen n) fun _ => anywhere := by
  intro fl s hs hi
  unfold fSetLen
  split
  · split
    · refine ⟨⟨?_, ?_, hs.pend⟩, fun _ _ => trivial⟩
      · dsimp only
        rw [List.foldl_append, hs.replay]; rfl
      · intro op hop
        rcases List.mem_append.mp hop with hop | hop
        · exact hs.low op hop
        · rw [List.mem_singleton] at hop
          subst hop
          exact h
    · exact ⟨⟨hs.replay, hs.low, hs.pend⟩, fun _ h => by cases h⟩
  · exact ⟨hs, fun _ h => by cases h⟩

theorem fRead_keeps {α F0 m e pos} {p : P α} {Q : α → Prop} (h : ∀ F a q, p e F pos = .ok (a, q) → Q a) :
    Keeps F0 m e flushed (fRead pos p) fun a s => flushed s ∧ Q a := by
  intro fl s hs hi
  have hs' : ∀ c, Safe F0 m { s.toWSt with cur := c } := fun c => ⟨hs.replay, hs.low, fun hb => absurd hi hb⟩
  unfold fRead
  dsimp only
  split
  · split
    · rename_i hq
      refine ⟨hs' _, fun a ha => ⟨hi, ?_⟩⟩
      cases ha
      obtain ⟨u, p1, hq1, hq2⟩ := P.bind_inv hq
      rw [seekStart] at hq1
      split at hq1
      · cases hq1
        exact h _ _ _ hq2
      · cases hq1
    · exact ⟨hs' _, fun _ h => by cases h⟩
    · exact ⟨hs' _, fun _ h => by cases h⟩
    · exact ⟨hs' _, fun _ h => by cases h⟩
  · exact ⟨hs' _, fun _ h => by cases h⟩

theorem fAll_keeps {α F0 m e I} {f : α → FW Unit} : ∀ l : List α, (∀ a ∈ l, Keeps F0 m e I (f a) fun _ => I) →
    Keeps F0 m e I (fAll f l) fun _ => I
  | [], _ => .pure ()
  | x :: xs, h => .bind (h x (by simp)) fun _ => fAll_keeps xs fun a ha => h a (by simp [ha])

theorem fEmit_keeps {F0 m e w} : Keeps F0 m e (behind m) (fEmit w) fun _ => behind m := by
  intro fl s hs hi
  obtain ⟨k1, k2⟩ := fAll_keeps (F0 := F0) (e := e) (w e).1 (fun b _ => fWriteAll_keeps (b := b)) fl s hs hi
  unfold fEmit
  rcases hc : fAll fWriteAll (w e).1 fl e s with ⟨r, s'⟩
  rw [hc] at k1 k2
  cases r with
  | ok a => exact ⟨k1, fun _ _ => k2 _ rfl⟩
  | err k => exact ⟨k1, fun a h => by cases h⟩
  | panic => exact ⟨k1, fun a h => by cases h⟩
  | fuel => exact ⟨k1, fun a h => by cases h⟩

/-- The table follows its count. -/
theorem parseTable_pos {w : Nat} {size : Size} {e F p tp os q} (h : parseTable w size e F p = .ok ((tp, os), q)) : p ≤ tp := by
  unfold parseTable at h
  obtain ⟨⟨v, fl⟩, p1, h1, h2⟩ := P.bind_inv h
  have hp1 : p ≤ p1 := by
    unfold parseFullHead at h1
    obtain ⟨a, p2, k1, k2⟩ := P.bind_inv h1
    obtain ⟨b, p3, k3, k4⟩ := P.bind_inv k2
    cases P.pure_inv k4
    obtain ⟨c, p4, k5, k6⟩ := P.bind_inv k1
    cases P.pure_inv k6
    have := (readExact_inv k5)
    have := (readExact_inv k3)
    omega
  dsimp only at h2
  split at h2
  · obtain ⟨n, p2, h3, h4⟩ := P.bind_inv h2
    have hp2 : p1 ≤ p2 := by
      unfold readU32 at h3
      obtain ⟨c, p4, k5, k6⟩ := P.bind_inv h3
      cases P.pure_inv k6
      have := (readExact_inv k5)
      omega
    obtain ⟨cl, p3, h5, h6⟩ := P.bind_inv h4
    have hp3 : p3 = p2 := by
      unfold E.p at h5
      split at h5 <;> cases h5
      rfl
    split at h6
    · cases h6
    · obtain ⟨t, p4, h7, h8⟩ := P.bind_inv h6
      cases h7
      obtain ⟨o, p5, h9, h10⟩ := P.bind_inv h8
      obtain ⟨h11, -⟩ := P.pure_inv h10
      cases h11
      omega
  · cases h2

theorem fPatchTable_keeps {F0 m e w d} {a : AtomBounds} (h1 : m ≤ a.pos) (h2 : a.pos + 16 < 2^64) :
    Keeps F0 m e flushed (fPatchTable w d a) fun _ => flushed := by
  refine Keeps.bind Keeps.E fun pos => ?_
  by_cases hpos : a.contentPos e = .ok pos
  · have hge : m ≤ pos := by
      have := addU_inv hpos
      have hh : a.size.headLen ≤ 16 := by unfold Size.headLen; split <;> omega
      rw [Nat.mod_eq_of_lt (by omega)] at this
      omega
    refine Keeps.bind ((fRead_keeps (Q := fun r => m ≤ r.1) fun F r q h => Nat.le_trans hge (parseTable_pos (tp := r.1) (os := r.2) h)).conseq
      (fun s hs => hs.1) (fun _ _ h => h)) fun r => ?_
    by_cases hr : m ≤ r.1
    · exact .bind (fSeekStart_keeps hr) fun _ => .bind (fAll_keeps _ fun co _ =>
        .bind (Keeps.E.conseq (fun _ h => h) (fun _ _ h => h.1)) fun _ => fWriteAll_keeps) fun _ => fFlush_keeps
    · exact fun fl s _ hi => absurd hi.2 hr
  · exact fun fl s _ hi => absurd hi.2 hpos

theorem fOpt_keeps {α F0 m e I} {f : α → FW Unit} {x : Option α} (h : ∀ a, x = some a → Keeps F0 m e I (f a) fun _ => I) :
    Keeps F0 m e I (fOpt f x) fun _ => I := by
  cases x with
  | none => exact .pure ()
  | some a => exact h a rfl

/-- The tables of a track are behind `m`. -/
def TablesIn (m : Nat) (s : StblBounds) : Prop :=
  (∀ a, s.stco = some a → m ≤ a.pos ∧ a.pos + 16 < 2^64) ∧ (∀ a, s.co64 = some a → m ≤ a.pos ∧ a.pos + 16 < 2^64)

theorem fPatchStbl_keeps {F0 m e d} {s : StblBounds} (h : TablesIn m s) : Keeps F0 m e flushed (fPatchStbl d s) fun _ => flushed :=
  .bind (fOpt_keeps fun a ha => fPatchTable_keeps (h.1 a ha).1 (h.1 a ha).2) fun _ =>
    fOpt_keeps fun a ha => fPatchTable_keeps (h.2 a ha).1 (h.2 a ha).2

theorem fPatchHead_keeps {F0 m e d} {a : AtomBounds} (h : m ≤ a.pos) : Keeps F0 m e anywhere (fPatchHead d a) fun _ => anywhere := by
  refine .bind (Keeps.E.conseq (fun _ h => h) (fun _ _ h => h.1)) fun _ => .bind (fSeekStart_keeps h) fun _ => ?_
  split
  · exact .bind fWriteAll_keeps fun _ => .bind fSeekCur_keeps fun _ => fWriteAll_keeps.conseq (fun _ h => h) fun _ _ _ => trivial
  · exact fWriteAll_keeps.conseq (fun _ h => h) fun _ _ _ => trivial

theorem fWritePhase_keeps {F0 m e mp moov ol moved atoms} {p : Plan} (h1 : ∀ s ∈ stblAtoms moov, TablesIn m s)
    (h2 : ∀ a ∈ p.updateAtoms, m ≤ a.pos) (h3 : ∀ n, addI (asI64 ol) p.lenDiff e = .ok n → m ≤ asU64 n) (h4 : m ≤ p.newAtomsStart)
    (h5 : ∀ n, addI (asI64 p.movedDataStart) p.lenDiff e = .ok n → m ≤ asU64 n) :
    Keeps F0 m e flushed (fWritePhase mp moov p ol moved atoms) fun _ => flushed := by
  have hrest : Keeps F0 m e anywhere (do
      fAll (fPatchHead p.lenDiff) p.updateAtoms.reverse
      let n ← (addI (asI64 ol) p.lenDiff).fw
      fSetLen (asU64 n)
      fSeekStart p.newAtomsStart
      fEmit (newAtomsWr p atoms)
      let m ← (addI (asI64 p.movedDataStart) p.lenDiff).fw
      fSeekStart (asU64 m)
      fWriteAll moved
      fFlush) fun _ => flushed := by
    refine .bind (fAll_keeps _ fun a ha => fPatchHead_keeps (h2 a (List.mem_reverse.mp ha))) fun _ => .bind Keeps.E fun n => ?_
    by_cases hn : addI (asI64 ol) p.lenDiff e = .ok n
    · refine .bind (fSetLen_keeps (h3 n hn)) fun _ => .bind (fSeekStart_keeps h4) fun _ => .bind fEmit_keeps fun _ => .bind Keeps.E fun k => ?_
      by_cases hk : addI (asI64 p.movedDataStart) p.lenDiff e = .ok k
      · exact .bind (fSeekStart_keeps (h5 k hk)) fun _ => .bind fWriteAll_keeps fun _ => fFlush_keeps
      · exact fun fl s _ hi => absurd hi.2 hk
    · exact fun fl s _ hi => absurd hi.2 hn
  unfold fWritePhase
  split
  · exact .bind (fAll_keeps _ fun s hs => fPatchStbl_keeps (h1 s hs)) fun _ => hrest.conseq (fun _ _ => trivial) fun _ _ h => h
  · exact hrest.conseq (fun _ _ => trivial) fun _ _ h => h

/-- Success means that the buffer is empty: the last action was a flush. -/
theorem FW.bind_post {α β} {m : FW α} {f : α → FW β} {fl e} {K : FSt → Prop} (h : ∀ a s b, (f a fl e s).1 = .ok b → K (f a fl e s).2)
    (s : FSt) (b : β) : ((m >>= f) fl e s).1 = .ok b → K ((m >>= f) fl e s).2 := by
  rw [FW.bind_def, FW.bind]
  rcases m fl e s with ⟨r, s'⟩
  cases r with
  | ok a => exact h a s' b
  | _ => intro h; cases h

theorem fWritePhase_flushed {mp moov p ol moved atoms} (fl : Faults) (e : Env) (s : FSt) :
    (fWritePhase mp moov p ol moved atoms fl e s).1 = .ok () → (fWritePhase mp moov p ol moved atoms fl e s).2.buf = [] := by
  let K : FSt → Prop := fun s => s.buf = []
  have hflush : ∀ (s : FSt) (b : Unit), (fFlush fl e s).1 = .ok b → (fFlush fl e s).2.buf = [] := by
    intro s b
    unfold fFlush fFlushBuf
    split
    · rename_i hb
      exact fun _ => List.isEmpty_iff.mp hb
    · split
      · exact fun _ => rfl
      · intro h; cases h
  have hrest : ∀ (s : FSt) (b : Unit), ((do
      fAll (fPatchHead p.lenDiff) p.updateAtoms.reverse
      let n ← (addI (asI64 ol) p.lenDiff).fw
      fSetLen (asU64 n)
      fSeekStart p.newAtomsStart
      fEmit (newAtomsWr p atoms)
      let m ← (addI (asI64 p.movedDataStart) p.lenDiff).fw
      fSeekStart (asU64 m)
      fWriteAll moved
      fFlush : FW Unit) fl e s).1 = .ok b → K _ :=
    (@FW.bind_post _ _ _ _ _ _ K) fun _ => (@FW.bind_post _ _ _ _ _ _ K) fun _ => (@FW.bind_post _ _ _ _ _ _ K) fun _ =>
      (@FW.bind_post _ _ _ _ _ _ K) fun _ => (@FW.bind_post _ _ _ _ _ _ K) fun _ => (@FW.bind_post _ _ _ _ _ _ K) fun _ =>
      (@FW.bind_post _ _ _ _ _ _ K) fun _ => (@FW.bind_post _ _ _ _ _ _ K) fun _ => hflush
  unfold fWritePhase
  split
  · exact FW.bind_post (K := fun s => s.buf = []) (fun _ => hrest) s ()
  · exact hrest s ()

/-! ### Where the tables are -/

theorem lastAt_mem {κ β} {box : κ → Box} {f : Nat → κ → Option β} {y : β} : ∀ (ks : List κ) (p : Nat), lastAt box f p ks = some y →
    ∃ q k, k ∈ ks ∧ f q k = some y ∧ p ≤ q ∧ q + (box k).ser.length ≤ p + (serL box ks).length := by
  intro ks
  induction ks with
  | nil => intro p h; exact absurd h (by simp [lastAt])
  | cons k ks ih =>
    intro p h
    have hl : (serL box (k :: ks)).length = (box k).ser.length + (serL box ks).length := by rw [serL_cons, List.length_append]
    rw [lastAt, Option.or_eq_some_iff] at h
    rcases h with h | ⟨_, h⟩
    · obtain ⟨q, k', h1, h2, h3, h4⟩ := ih _ h
      exact ⟨q, k', by simp [h1], h2, by omega, by omega⟩
    · exact ⟨p, k, by simp, h, Nat.le_refl _, by omega⟩

theorem allAt_mem {κ β} {box : κ → Box} {f : Nat → κ → Option β} {y : β} : ∀ (ks : List κ) (p : Nat), y ∈ allAt box f p ks →
    ∃ q k, k ∈ ks ∧ f q k = some y ∧ p ≤ q ∧ q + (box k).ser.length ≤ p + (serL box ks).length := by
  intro ks
  induction ks with
  | nil => intro p h; exact absurd h (by simp [allAt])
  | cons k ks ih =>
    intro p h
    have hl : (serL box (k :: ks)).length = (box k).ser.length + (serL box ks).length := by rw [serL_cons, List.length_append]
    rw [allAt, List.mem_append] at h
    rcases h with h | h
    · exact ⟨p, k, by simp, by simpa using h, Nat.le_refl _, by omega⟩
    · obtain ⟨q, k', h1, h2, h3, h4⟩ := ih _ h
      exact ⟨q, k', by simp [h1], h2, by omega, by omega⟩

theorem stblB_in {q : Nat} {b : Box} {s : Stbl} (hb : b.body = s.ser) (h : q + b.ser.length < 2^62) : TablesIn q (stblB q b s) := by
  have hl : b.ser.length = b.headLen + (serL id s).length := by rw [b.ser_length, hb]; rfl
  constructor <;> intro a ha
  · have := lastAt_leaf_pos _ _ ha; omega
  · have := lastAt_leaf_pos _ _ ha; omega

theorem TablesIn.mono {m n s} (h : TablesIn n s) (hm : m ≤ n) : TablesIn m s :=
  ⟨fun a ha => ⟨Nat.le_trans hm (h.1 a ha).1, (h.1 a ha).2⟩, fun a ha => ⟨Nat.le_trans hm (h.2 a ha).1, (h.2 a ha).2⟩⟩

/-- If what is found in a child is in the child, what is found in the list is in the list. -/
theorem kids_in {α β} {fc : Fourcc} {ser : α → Bytes} {g : Nat → Box → α → β} {R : Nat → β → Prop} {y : β} {q : Nat} {b : Box} {ks : List (Kid α)}
    (hmono : ∀ m n y, R n y → m ≤ n → R m y)
    (hg : ∀ (q : Nat) (b : Box) a, b.body = ser a → q + b.ser.length < 2^62 → R q (g q b a))
    (hb : b.body = serL (Kid.box fc ser) ks) (h : q + b.ser.length < 2^62)
    (hy : lastAt (Kid.box fc ser) (kidAt (Kid.box fc ser) g) (q + b.headLen) ks = some y) : R q y := by
  obtain ⟨q', k, _, h1, h2, h3⟩ := lastAt_mem _ _ hy
  have hl : b.ser.length = b.headLen + (serL (Kid.box fc ser) ks).length := by rw [b.ser_length, hb]
  cases k with
  | node ext a =>
    cases h1
    exact hmono q q' _ (hg q' _ a rfl (by omega)) (by omega)
  | raw b => cases h1

theorem minfB_in {q : Nat} {b : Box} {m : Minf} (hb : b.body = m.ser) (h : q + b.ser.length < 2^62) :
    ∀ s, minfB q b m = some s → TablesIn q s := fun _ hs =>
  kids_in (R := TablesIn) (fun _ _ _ => TablesIn.mono) (fun _ _ _ => stblB_in) hb h hs

theorem mdiaB_in {q : Nat} {b : Box} {m : Mdia} (hb : b.body = m.ser) (h : q + b.ser.length < 2^62) :
    ∀ t, mdiaB q b m = some t → ∀ s, t = some s → TablesIn q s := fun _ hs =>
  kids_in (R := fun q t => ∀ s, t = some s → TablesIn q s) (fun _ _ _ h hm s hs => (h s hs).mono hm) (fun _ _ _ => minfB_in) hb h hs

theorem trakB_in {q : Nat} {b : Box} {m : Spec.Trak} (hb : b.body = m.ser) (h : q + b.ser.length < 2^62) :
    ∀ u, trakB q b m = some u → ∀ t, u = some t → ∀ s, t = some s → TablesIn q s := fun _ hs =>
  kids_in (R := fun q u => ∀ t, u = some t → ∀ s, t = some s → TablesIn q s) (fun _ _ _ h hm t ht s hs => (h t ht s hs).mono hm)
    (fun _ _ _ => mdiaB_in) hb h hs

theorem moovB_in {q : Nat} {b : Box} {m : Spec.Moov} (hb : b.body = m.ser) (h : q + b.ser.length < 2^62) :
    ∀ s ∈ stblAtoms (moovB q b m), TablesIn q s := by
  intro s hs
  obtain ⟨t, ht, hts⟩ := List.mem_filterMap.mp hs
  obtain ⟨q', k, _, h1, h2, h3⟩ := allAt_mem _ _ ht
  have hl : b.ser.length = b.headLen + (serL MoovKid.box m).length := by rw [b.ser_length, hb]; rfl
  cases k with
  | trak ext x =>
    cases h1
    rcases hu : trakB q' (MoovKid.box (.trak ext x)) x with _ | u
    · rw [hu] at hts; cases hts
    · rw [hu] at hts
      rcases u with _ | u
      · cases hts
      · exact (trakB_in (q := q') rfl (by omega) _ hu u rfl s hts).mono (by omega)
  | _ => cases h1

theorem Heads.bounds_ge : ∀ (hs : Heads) (p : Nat), ∀ a ∈ hs.bounds p, p ≤ a.pos := by
  intro hs
  induction hs with
  | nil => intro p a ha; cases ha
  | cons x hs ih =>
    intro p a ha
    rcases List.mem_cons.mp ha with rfl | ha
    · exact Nat.le_refl _
    · have := ih _ a ha; omega

theorem put_shift_length {f : File} {atoms : List AtomData} (ht : f.MediaBehind → f.moov.Tables) :
    (serL MoovKid.box (f.put atoms).moov).length = (serL MoovKid.box (f.moov.put id atoms)).length := by
  show (serL MoovKid.box (f.moov.put (if f.MediaBehind then Spec.Trak.shift (f.growth atoms) else id) atoms)).length = _
  generalize hg : (if f.MediaBehind then Spec.Trak.shift (f.growth atoms) else id) = g
  have hgl : ∀ ks : List MoovKid, (∀ k ∈ ks, k ∈ f.moov) →
      (serL MoovKid.box (ks.map (MoovKid.mapTrak g))).length = (serL MoovKid.box ks).length := by
    intro ks hks
    rw [← hg]
    split
    · rename_i h
      exact shift_length ks (fun ext t hk => ht h ext t (hks _ hk))
    · rw [mapTrak_id]
  rcases last_split isUdta f.moov with h | ⟨A, k, B, hm, hk, hB⟩
  · rw [put_none h, put_none h, serL_append, serL_append, List.length_append, List.length_append, mapTrak_id, hgl _ (fun _ h => h)]
  · cases k with
    | udta ext u =>
      rw [hm, put_split hB, put_split hB, serL_append, serL_append, List.length_append, List.length_append, mapTrak_id,
        hgl A (fun k hk => by rw [hm]; simp [hk])]
    | _ => exact absurd hk id

/-- Whatever calls fail: the file is the result of the system calls, none of which touches a byte in front of `moov`. -/
theorem writeTagF_safe {e : Env} {f : File} {X : Bytes} {atoms : List AtomData} (fl : Faults) (hF : Fit e (X ++ f.ser)) (hw : f.WF)
    (hs : ∀ a ∈ atoms, Storable a) (ho : (X ++ f.ser).length < 2^62) (hn : (X ++ (f.put atoms).ser).length < 2^62)
    (ht : f.MediaBehind → f.moov.Tables) :
    Safe (X ++ f.ser) (f.moovPos X.length) (writeTagF fl e (X ++ f.ser) X.length atoms).2.toWSt := by
  have h0 : Safe (X ++ f.ser) (f.moovPos X.length) { file := X ++ f.ser, cur := e.rcur 0 } :=
    ⟨rfl, (fun _ h => by cases h), fun h => absurd rfl h⟩
  have hX : (X ++ f.ser).length = f.moovPos X.length + f.moovBox.ser.length + (serL id f.post).length := by
    simp only [File.ser, List.length_append, Spec.File.moovPos]; omega
  have hX' : (X ++ (f.put atoms).ser).length = f.moovPos X.length + (f.put atoms).moovBox.ser.length + (serL id f.post).length := by
    show (X ++ (f.ftypBox.ser ++ serL id f.pre ++ (f.put atoms).moovBox.ser ++ serL id f.post)).length = _
    simp only [List.length_append, Spec.File.moovPos]; omega
  have hb : f.moovBox.body = serL MoovKid.box f.moov := rfl
  have hb' : (f.put atoms).moovBox.body.length = (serL MoovKid.box (f.moov.put id atoms)).length := put_shift_length ht
  rw [Box.ser_length] at hX hX'
  obtain ⟨pl⟩ := exists_place (e := e) (q := f.moovPos X.length) (b := f.moovBox) (m := f.moov) hs hb
    (by rw [Box.ser_length]; omega) (by omega) hw.2.2.1
  have hold : (serL MoovKid.box f.moov).length = (serL MoovKid.box pl.before).length + pl.inner.old.length + pl.old.length + pl.rest.length := by
    rw [pl.ser]; simp only [List.length_append]
  have hnew : (serL MoovKid.box (f.moov.put id atoms)).length = (serL MoovKid.box pl.before).length + pl.inner.old.length + pl.new.length + pl.rest.length := by
    rw [pl.put id, mapTrak_id]; simp only [List.length_append]; rw [Heads.length pl.ok]
  have hst := pl.start
  have hmv := pl.moved
  have hdf := pl.diff
  rw [hb] at hX
  obtain ⟨c, hc⟩ := preparePhase_at (atoms := atoms) hF hw pl.plans (by omega)
  unfold writeTagF
  cases hsr : fl.search
  · simp only [Bool.false_eq_true, if_false]
    rw [hc]
    have key := fWritePhase_keeps (F0 := X ++ f.ser) (m := f.moovPos X.length) (e := e) (mp := f.mdatPos X.length)
      (moov := moovB (f.moovPos X.length) f.moovBox f.moov) (ol := (X ++ f.ser).length) (moved := (X ++ f.ser).drop pl.plan.movedDataStart)
      (atoms := atoms) (p := pl.plan) (moovB_in (b := f.moovBox) rfl (by rw [Box.ser_length, hb]; omega))
      (by
        intro a ha
        rw [← List.mem_reverse, pl.bounds] at ha
        rcases List.mem_cons.mp ha with rfl | ha
        · exact Nat.le_refl _
        · have := Heads.bounds_ge _ _ a ha; omega)
      (by
        intro n hn'
        rw [asI64_lt (by omega)] at hn'
        rw [addI_small hn' (by omega) (by omega)]
        have := asU64_int (n := ((X ++ f.ser).length : Int) + pl.plan.lenDiff) (by omega) (by omega)
        omega)
      (by omega)
      (by
        intro n hn'
        rw [asI64_lt (by omega)] at hn'
        rw [addI_small hn' (by omega) (by omega)]
        have := asU64_int (n := (pl.plan.movedDataStart : Int) + pl.plan.lenDiff) (by omega) (by omega)
        omega)
    exact (flush_keeps (key fl { file := X ++ f.ser, cur := e.rcur 0 } h0 rfl).1).1
  · simp only [if_true]
    exact h0

/-- The whole write with failing calls and without. -/
theorem writeTagF_sim (fl : Faults) (e : Env) (F : Bytes) (pos : Nat) (atoms : List AtomData) :
    (fl.search = false ∧ Intact fl (writeTagF fl e F pos atoms).2 ∧ (writeTagF fl e F pos atoms).1 = (writeTagTo e F pos atoms).1 ∧
      (writeTagF fl e F pos atoms).2.toWSt = (writeTagTo e F pos atoms).2) ∨
    (fl.search = true ∧ (writeTagF fl e F pos atoms).1 = .err .io ∧ (writeTagF fl e F pos atoms).2.file = F ∧
      (writeTagF fl e F pos atoms).2.trace = []) ∨
    (¬ Intact fl (writeTagF fl e F pos atoms).2 ∧ (writeTagF fl e F pos atoms).1 = .err .io) ∨
    (¬ Intact fl (writeTagF fl e F pos atoms).2 ∧ (writeTagF fl e F pos atoms).1 ≠ .ok () ∧
      (writeTagF fl e F pos atoms).1 = (writeTagTo e F pos atoms).1) := by
  unfold writeTagF writeTagTo
  have h0 : ∀ c, Intact fl { file := F, cur := c } := fun _ k hk => absurd hk (Nat.not_lt_zero k)
  cases hsr : fl.search
  · simp only [Bool.false_eq_true, if_false]
    split
    · rename_i mp moov p ol moved c hp
      rw [hp]
      dsimp only
      have h := FSim.writePhase mp moov p ol moved atoms fl e { file := F, cur := e.rcur 0 } (h0 _)
      have hfin : (fWritePhase mp moov p ol moved atoms fl e { file := F, cur := e.rcur 0 }).1 = .ok () →
          (fWritePhase mp moov p ol moved atoms fl e { file := F, cur := e.rcur 0 }).2.buf = [] := fWritePhase_flushed _ _ _
      generalize fWritePhase mp moov p ol moved atoms fl e { file := F, cur := e.rcur 0 } = r at h hfin
      rcases h with ⟨h1, h2, h3⟩ | ⟨h1, h2⟩
      · have hd := FSim.flushBuf fl e r.2 h1
        rcases hd with ⟨d1, -, d3⟩ | ⟨d1, d2⟩
        · exact .inl ⟨trivial, d1, h2, by rw [fDrop, d3, h3]; rfl⟩
        · refine .inr (.inr (.inr ⟨d1, fun hk => ?_, h2⟩))
          have hb := hfin hk
          unfold fFlushBuf at d2
          rw [hb] at d2
          cases d2
      · refine .inr (.inr (.inl ⟨fun hk => h1 fun k hlt => hk k ?_, h2⟩))
        unfold fDrop fFlushBuf
        split
        · exact hlt
        · split <;> exact Nat.lt_succ_of_lt hlt
    · rename_i k hp
      rw [hp]
      exact .inl ⟨trivial, h0 _, rfl, rfl⟩
    · rename_i hp
      rw [hp]
      exact .inl ⟨trivial, h0 _, rfl, rfl⟩
    · rename_i hp
      rw [hp]
      exact .inl ⟨trivial, h0 _, rfl, rfl⟩
  · simp only [if_true]
    exact .inr (.inl ⟨trivial, trivial, trivial, trivial⟩)

end Mp4
