import Verif.Model.Narrow
import Verif.Proof.Fail
import Verif.Proof.Cost
/-
Builds with a 32 bit `usize`: on a file below 2^31 bytes they can do whatever succeeds with 64 bits.
-/
namespace Mp4

/-! ### Reading -/

/-- Whenever the first computation succeeds, so does the second, with the same result. -/
def NSim (e : Env) (F : Bytes) {α} (m m' : P α) : Prop := ∀ p a q, m e F p = .ok (a, q) → m' e F p = .ok (a, q)

section
variable {e : Env} {F : Bytes}

theorem NSim.rfl {α} {m : P α} : NSim e F m m := fun _ _ _ h => h

theorem NSim.bind {α β} {m m' : P α} {f f' : α → P β} (h : NSim e F m m') (hf : ∀ a, NSim e F (f a) (f' a)) :
    NSim e F (m >>= f) (m' >>= f') := by
  intro p b q hb
  obtain ⟨a, r, h1, h2⟩ := P.bind_inv hb
  rw [P.bind_ok (h _ _ _ h1)]
  exact hf a _ _ _ h2

theorem NSim.bind2 {α β γ} {m m' : P (α × β)} {f f' : α × β → P γ} (h : NSim e F m m')
    (hf : ∀ a b, NSim e F (f (a, b)) (f' (a, b))) : NSim e F (m >>= f) (m' >>= f') := NSim.bind h fun ⟨a, b⟩ => hf a b

theorem NSim.ite {α} {q : Prop} [Decidable q] {m m' n n' : P α} (h : NSim e F m m') (h' : NSim e F n n') :
    NSim e F (if q then m else n) (if q then m' else n') := by split <;> assumption

/-- One step. -/
macro "nsim" "[" ts:term,* "]" : tactic =>
  `(tactic| repeat' (first
    | with_reducible exact NSim.rfl
    $[| with_reducible exact $ts]*
    | with_reducible apply NSim.ite
    | with_reducible apply NSim.bind2
    | with_reducible apply NSim.bind
    | intro _
    | dsimp only))

theorem alloc32_ok {n : Nat} (h : n < 2^31) (p : Nat) : (alloc32 n).p e F p = .ok ((), p) := by
  simp [E.p, alloc32, Nat.not_le.mpr h]

theorem NSim.vec (hF : F.length < 2^31) (n : Nat) :
    NSim e F (do (allocU8 n).p; readExact n) (do (alloc32 (usize32 n)).p; readExact (usize32 n)) := by
  intro p b q hb
  obtain ⟨_, r, h1, h2⟩ := P.bind_inv hb
  obtain ⟨_, rfl⟩ := E.p_inv h1
  obtain ⟨_, hq, h3⟩ := readExact_inv h2
  have hn : n < 2^31 := by omega
  have hu : usize32 n = n := Nat.mod_eq_of_lt (by omega)
  rw [hu, P.bind_ok (alloc32_ok hn _)]
  exact h2

theorem NSim.readU8Vec (hF : F.length < 2^31) (n : Nat) : NSim e F (readU8Vec n) (readU8Vec32 n) := NSim.vec hF n

theorem NSim.readUtf8 (hF : F.length < 2^31) (n : Nat) : NSim e F (readUtf8 n) (readUtf832 n) := by
  unfold Mp4.readUtf8 readUtf832
  exact NSim.bind (NSim.readU8Vec hF n) fun _ => NSim.rfl

theorem NSim.readUtf16 (hF : F.length < 2^31) (n : Nat) : NSim e F (readUtf16 n) (readUtf1632 n) := by
  intro p b q hb
  unfold Mp4.readUtf16 at hb
  obtain ⟨_, r, h1, h2⟩ := P.bind_inv hb
  obtain ⟨x, r', h3, h4⟩ := P.bind_inv h2
  have := NSim.vec (e := e) hF n p x r' (by rw [P.bind_ok h1]; exact h3)
  obtain ⟨_, r2, h5, h6⟩ := P.bind_inv this
  unfold readUtf1632
  rw [P.bind_ok h5, P.bind_ok h6]
  exact h4

theorem NSim.dataParse (hF : F.length < 2^31) (t n : Nat) : NSim e F (Data.parse t n) (Data.parse32 t n) := by
  by_cases h0 : t = 0
  · subst h0; exact NSim.bind (NSim.readU8Vec hF n) fun _ => NSim.rfl
  by_cases h1 : t = 1
  · subst h1; exact NSim.bind (NSim.readUtf8 hF n) fun _ => NSim.rfl
  by_cases h2 : t = 2
  · subst h2; exact NSim.bind (NSim.readUtf16 hF n) fun _ => NSim.rfl
  by_cases h13 : t = 13
  · subst h13; exact NSim.bind (NSim.readU8Vec hF n) fun _ => NSim.rfl
  by_cases h14 : t = 14
  · subst h14; exact NSim.bind (NSim.readU8Vec hF n) fun _ => NSim.rfl
  by_cases h21 : t = 21
  · subst h21; exact NSim.bind (NSim.readU8Vec hF n) fun _ => NSim.rfl
  by_cases h27 : t = 27
  · subst h27; exact NSim.bind (NSim.readU8Vec hF n) fun _ => NSim.rfl
  have e1 : Data.parse t n = fail (.unknownDataType t) := by unfold Data.parse; split <;> first | contradiction | rfl
  intro p a q h
  rw [e1] at h
  exact absurd h P.fail_inv

theorem NSim.walk {σ : Type} {l : E Nat} {f g : σ → Head → P σ} (h : ∀ s x, NSim e F (f s x) (g s x)) (n : Nat) :
    ∀ s q, NSim e F (walk l f n s q) (walk l g n s q) := by
  induction n with
  | zero => intro s q; exact NSim.rfl
  | succ n ih => intro s q; unfold Mp4.walk; nsim [h _ _, ih _ _]

theorem NSim.loop {σ : Type} {l : E Nat} {f g : σ → Head → P σ} (h : ∀ s x, NSim e F (f s x) (g s x)) (s : σ) (q : Nat) :
    NSim e F (loop l f s q) (loop l g s q) := by
  unfold Mp4.loop; nsim [NSim.walk h _ _ _]

theorem NSim.itemHandle (hF : F.length < 2^31) (s : ItemSt) (h : Head) : NSim e F (itemHandle s h) (itemHandle32 s h) := by
  unfold Mp4.itemHandle itemHandle32; nsim [NSim.dataParse hF _ _, NSim.readUtf8 hF _]

theorem NSim.parseItem (hF : F.length < 2^31) (fc : Fourcc) (n : Nat) : NSim e F (parseItem fc n) (parseItem32 fc n) := by
  unfold Mp4.parseItem parseItem32; nsim [NSim.loop (NSim.itemHandle hF) _ _]

theorem NSim.parseIlst (hF : F.length < 2^31) (s : Size) : NSim e F (parseIlst s) (parseIlst32 s) := by
  unfold Mp4.parseIlst parseIlst32; apply NSim.loop; nsim [NSim.parseItem hF _ _]

theorem NSim.parseMeta (hF : F.length < 2^31) (s : Size) : NSim e F (parseMeta s) (parseMeta32 s) := by
  unfold Mp4.parseMeta parseMeta32
  refine NSim.bind2 NSim.rfl fun v _ => ?_
  dsimp only
  apply NSim.ite NSim.rfl
  apply NSim.loop; nsim [NSim.parseIlst hF _]

theorem NSim.parseUdta (hF : F.length < 2^31) (s : Size) : NSim e F (parseUdta s) (parseUdta32 s) := by
  unfold Mp4.parseUdta parseUdta32; apply NSim.loop; nsim [NSim.parseMeta hF _]

theorem NSim.moovHandle (hF : F.length < 2^31) (s : Moov) (h : Head) : NSim e F (moovHandle s h) (moovHandle32 s h) := by
  unfold Mp4.moovHandle moovHandle32; nsim [NSim.parseUdta hF _]

theorem NSim.parseMoov (hF : F.length < 2^31) (s : Size) : NSim e F (parseMoov s) (parseMoov32 s) := by
  unfold Mp4.parseMoov parseMoov32; exact NSim.loop (NSim.moovHandle hF) _ _

theorem NSim.topWalk (hF : F.length < 2^31) (len n : Nat) : ∀ q, NSim e F (topWalk len n q) (topWalk32 len n q) := by
  induction n with
  | zero => intro q; exact NSim.rfl
  | succ n ih => intro q; unfold Mp4.topWalk topWalk32; nsim [NSim.parseMoov hF _, ih _]

theorem NSim.parseFtyp (hF : F.length < 2^31) : NSim e F parseFtyp parseFtyp32 := by
  unfold Mp4.parseFtyp parseFtyp32; nsim [NSim.readUtf8 hF _]

theorem NSim.readTagP (hF : F.length < 2^31) : NSim e F readTagP readTagP32 := by
  unfold Mp4.readTagP readTagP32; nsim [NSim.parseFtyp hF, NSim.topWalk hF _ _ _]

/-! ### Saving -/

theorem readTable_fits {w n : Nat} (hw : 0 < w) : ∀ {p l q}, readTable w n e F p = .ok (l, q) →
    l.length = n ∧ q = p + w * n ∧ (n = 0 ∨ q ≤ F.length) := by
  induction n with
  | zero =>
    intro p l q h
    obtain ⟨rfl, rfl⟩ := P.pure_inv h
    simp
  | succ n ih =>
    intro p l q h
    obtain ⟨b, r, h1, h2⟩ := P.bind_inv h
    obtain ⟨l', r', h3, h4⟩ := P.bind_inv h2
    obtain ⟨rfl, rfl⟩ := P.pure_inv h4
    obtain ⟨_, rfl, h5⟩ := readExact_inv h1
    obtain ⟨h6, h7, h8⟩ := ih h3
    refine ⟨by simp [h6], by rw [h7, Nat.mul_succ]; omega, ?_⟩
    rcases h8 with h8 | h8
    · subst h8; omega
    · exact .inr h8

theorem NSim.parseTable (hF : F.length < 2^31) {w : Nat} (hw : 0 < w) (s : Size) : NSim e F (parseTable w s) (parseTable32 w s) := by
  unfold Mp4.parseTable parseTable32
  refine NSim.bind2 NSim.rfl fun v _ => ?_
  dsimp only
  refine NSim.ite (NSim.bind NSim.rfl fun n => NSim.bind NSim.rfl fun c => NSim.ite NSim.rfl (NSim.bind NSim.rfl fun tp => ?_)) NSim.rfl
  intro p a q h
  obtain ⟨l, r, h1, h2⟩ := P.bind_inv h
  obtain ⟨_, h3, h4⟩ := readTable_fits hw h1
  have : w * n < 2^31 := by
    rcases h4 with h4 | h4
    · subst h4; simp
    · omega
  rw [P.bind_ok (alloc32_ok this _)]
  exact h

theorem parseTable_fits {w : Nat} (hw : 0 < w) {s : Size} {p tp : Nat} {l : List Nat} {q : Nat}
    (h : parseTable w s e F p = .ok ((tp, l), q)) : l = [] ∨ tp + w * l.length ≤ F.length := by
  unfold Mp4.parseTable at h
  obtain ⟨⟨v, fl⟩, r, _, h⟩ := P.bind_inv h
  dsimp only at h
  split at h
  · obtain ⟨n, r2, _, h⟩ := P.bind_inv h
    obtain ⟨c, r3, _, h⟩ := P.bind_inv h
    split at h
    · exact absurd h P.fail_inv
    · obtain ⟨t, r4, ht, h⟩ := P.bind_inv h
      obtain ⟨l', r5, hl, h⟩ := P.bind_inv h
      obtain ⟨hx, hy⟩ := P.pure_inv h
      obtain ⟨rfl, rfl⟩ := Prod.mk.inj hx
      have ht' : t = r4 ∧ r4 = r3 := by
        unfold tellP at ht
        simp only [Out.ok.injEq, Prod.mk.injEq] at ht
        omega
      obtain ⟨h5, h6, h7⟩ := readTable_fits hw hl
      rcases h7 with h7 | h7
      · subst h7; exact .inl (List.length_eq_zero_iff.mp h5)
      · right; rw [h5]; omega
  · exact absurd h P.fail_inv

end

/-- Everything written so far and still in the buffer ends at `q`, inside the file, which has `n` bytes. -/
def Inside (n q : Nat) (s : WSt) : Prop := s.file.length = n ∧ s.cur + s.buf.length = q ∧ q ≤ n

/-- The file has `n` bytes and nothing is in the buffer. -/
def Idle (n : Nat) (s : WSt) : Prop := s.file.length = n ∧ s.buf = []

theorem Inside.sysWrite {n q : Nat} {s : WSt} {b : Bytes} (hb : s.buf = []) (h : s.file.length = n) (hq : s.cur + b.length = q) (hn : q ≤ n) :
    Inside n q (s.sysWrite b) ∧ (s.sysWrite b).buf = [] := by
  unfold WSt.sysWrite
  split
  · rename_i he
    rw [List.isEmpty_iff] at he
    subst he
    exact ⟨⟨h, by simpa [hb] using hq, hn⟩, hb⟩
  · exact ⟨⟨by simp only [writeAt_length]; omega, by simp only [hb, List.length_nil]; omega, hn⟩, hb⟩

theorem Inside.flush {n q : Nat} {s : WSt} (h : Inside n q s) : Inside n q s.flushBuf ∧ s.flushBuf.buf = [] := by
  obtain ⟨h1, h2, h3⟩ := h
  have := Inside.sysWrite (s := { s with buf := [] }) (b := s.buf) (n := n) (q := q) rfl h1 h2 h3
  unfold WSt.flushBuf
  refine ⟨⟨?_, ?_, h3⟩, rfl⟩
  · have := this.1.1
    unfold WSt.sysWrite at this ⊢
    split at this <;> simp_all
  · have := this.1.2.1
    unfold WSt.sysWrite at this ⊢
    split at this <;> simp_all

theorem Inside.write {e : Env} {n q : Nat} {s s' : WSt} {b : Bytes} (h : Inside n q s) (hn : q + b.length ≤ n)
    (hw : wWriteAll b e s = (.ok (), s')) : Inside n (q + b.length) s' := by
  unfold wWriteAll at hw
  have push : ∀ {s : WSt}, Inside n q s → Inside n (q + b.length) { s with buf := s.buf ++ b } := by
    intro s hs
    exact ⟨hs.1, by have := hs.2.1; simp only [List.length_append]; omega, hn⟩
  split at hw
  · obtain ⟨_, rfl⟩ := Prod.mk.inj hw
    exact push h
  · rename_i hlt
    dsimp only at hw
    have hs : Inside n q (if b.length > e.cap - s.buf.length then s.flushBuf else s) := by
      split
      · exact h.flush.1
      · exact h
    split at hw
    · rename_i hge
      obtain ⟨_, rfl⟩ := Prod.mk.inj hw
      by_cases hne : b = []
      · subst hne
        exact hs
      have hpos : 0 < b.length := List.length_pos_iff.mpr hne
      have hb : (if b.length > e.cap - s.buf.length then s.flushBuf else s).buf = [] := by
        split
        · exact h.flush.2
        · rename_i hx
          exact List.length_eq_zero_iff.mp (by omega)
      exact (Inside.sysWrite hb hs.1 (by have := hs.2.1; rw [hb] at this; simp only [List.length_nil] at this; omega) hn).1
    · obtain ⟨_, rfl⟩ := Prod.mk.inj hw
      exact push hs

/-- Whenever the first computation succeeds from an idle state, so does the second, with the same result, and is idle again. -/
def NWSim (e : Env) (n : Nat) (m m' : W Unit) : Prop :=
  ∀ s s', Idle n s → m e s = (.ok (), s') → m' e s = (.ok (), s') ∧ Idle n s'

theorem NWSim.bind {e : Env} {n : Nat} {m m' f f' : W Unit} (h : NWSim e n m m') (hf : NWSim e n f f') :
    NWSim e n (do m; f) (do m'; f') := by
  intro s s' hi hb
  obtain ⟨_, s1, h1, h2⟩ := W.bind_inv hb
  obtain ⟨h3, h4⟩ := h s s1 hi h1
  obtain ⟨h5, h6⟩ := hf s1 s' h4 h2
  exact ⟨by rw [W.bind_ok h3]; exact h5, h6⟩

theorem NWSim.pure {e : Env} {n : Nat} : NWSim e n (pure ()) (pure ()) := by
  intro s s' hi h
  obtain ⟨_, rfl⟩ := Prod.mk.inj h
  exact ⟨rfl, hi⟩

theorem NWSim.all {α} {e : Env} {n : Nat} {f f' : α → W Unit} (h : ∀ a, NWSim e n (f a) (f' a)) (l : List α) :
    NWSim e n (wAll f l) (wAll f' l) := by
  induction l with
  | nil => exact NWSim.pure
  | cons a l ih => exact NWSim.bind (h a) ih

theorem NWSim.opt {α} {e : Env} {n : Nat} {f f' : α → W Unit} (h : ∀ a, NWSim e n (f a) (f' a)) (x : Option α) :
    NWSim e n (wOpt f x) (wOpt f' x) := by
  cases x with
  | none => exact NWSim.pure
  | some a => exact h a

theorem writes_inside {e : Env} {n w : Nat} {d : Int} (l : List Nat) : ∀ {q s s'}, Inside n q s → q + w * l.length ≤ n →
    wAll (fun co => do
      let n ← (addI (asI64 co) d).w
      wWriteAll (toBe w (asU64 n))) l e s = (.ok (), s') → Inside n (q + w * l.length) s' := by
  induction l with
  | nil =>
    intro q s s' hi _ h
    obtain ⟨_, rfl⟩ := Prod.mk.inj h
    simpa using hi
  | cons a l ih =>
    intro q s s' hi hn h
    rw [List.length_cons, Nat.mul_succ] at hn ⊢
    obtain ⟨_, s1, h1, h2⟩ := W.bind_inv h
    obtain ⟨x, s2, h3, h4⟩ := W.bind_inv h1
    have : s2 = s := (Prod.mk.inj h3).2.symm
    subst this
    have := hi.write (by rw [toBe_length]; omega) h4
    rw [toBe_length] at this
    have := ih this (by omega) h2
    rwa [show q + (w * l.length + w) = q + w + w * l.length by omega]

theorem wRead_inv {α} {e : Env} {pos : Nat} {p : P α} {s s' : WSt} {a : α} (h : wRead pos p e s = (.ok a, s')) :
    (∃ q, p e s.file pos = .ok (a, q)) ∧ s' = { s with cur := e.rcur s.trace.length } := by
  unfold Mp4.wRead at h
  dsimp only at h
  split at h
  · rename_i hr
    cases h
    obtain ⟨_, q1, h1, h2⟩ := P.bind_inv hr
    have : q1 = pos := by
      unfold seekStart at h1
      split at h1
      · cases h1; rfl
      · cases h1
    subst this
    exact ⟨⟨_, h2⟩, rfl⟩
  all_goals cases h

theorem wRead_sim {α} {e : Env} {pos : Nat} {p p' : P α} {s s' : WSt} {a : α} (hs : NSim e s.file p p')
    (h : wRead pos p e s = (.ok a, s')) : wRead pos p' e s = (.ok a, s') := by
  unfold Mp4.wRead at h ⊢
  dsimp only at h ⊢
  split at h
  · rename_i hr
    have := NSim.bind (NSim.rfl (m := seekStart pos)) (fun _ => hs) _ _ _ hr
    rw [this]
    exact h
  all_goals cases h

theorem NWSim.patchTable {e : Env} {n w : Nat} {d : Int} (hn : n < 2^31) (hw : 0 < w) (a : AtomBounds) :
    NWSim e n (patchTable w d a) (patchTable32 w d a) := by
  intro s s' hi h
  unfold Mp4.patchTable at h
  obtain ⟨pos, s1, h1, hA⟩ := W.bind_inv h
  have e1 : s1 = s := (Prod.mk.inj h1).2.symm
  rw [e1] at h1 hA
  obtain ⟨⟨tp, l⟩, s2, h2, hB⟩ := W.bind_inv hA
  dsimp only at hB
  obtain ⟨u, s3, h3, hC⟩ := W.bind_inv hB
  obtain ⟨u', s4, h4, hD⟩ := W.bind_inv hC
  have h2' := wRead_sim (NSim.parseTable (by rw [hi.1]; exact hn) hw a.size) h2
  obtain ⟨⟨q, hq⟩, e2⟩ := wRead_inv h2
  have hfit := parseTable_fits hw hq
  rw [hi.1] at hfit
  refine ⟨?_, ?_⟩
  · unfold patchTable32
    rw [W.bind_ok h1, W.bind_ok h2']
    dsimp only
    rw [W.bind_ok h3, W.bind_ok h4]
    exact hD
  · have e3 : s3.file = s.file ∧ s3.buf = [] ∧ s3.cur = tp := by
      unfold wSeekStart at h3
      dsimp only at h3
      split at h3
      · cases h3
        subst e2
        unfold WSt.flushBuf WSt.sysWrite
        simp [hi.2]
      · cases h3
    cases hD
    rcases hfit with rfl | hfit
    · cases h4
      unfold WSt.flushBuf WSt.sysWrite
      rw [e3.2.1]
      exact ⟨by simpa [e3.1] using hi.1, by simp⟩
    · have hin : Inside n tp s3 := ⟨by rw [e3.1, hi.1], by rw [e3.2.1, e3.2.2]; rfl, by omega⟩
      have := (writes_inside l hin hfit h4).flush
      exact ⟨this.1.1, this.2⟩

theorem NWSim.patchStbl {e : Env} {n : Nat} {d : Int} (hn : n < 2^31) (a : StblBounds) :
    NWSim e n (patchStbl d a) (patchStbl32 d a) :=
  NWSim.bind (NWSim.opt (fun x => NWSim.patchTable hn (by decide) x) _) (NWSim.opt (fun x => NWSim.patchTable hn (by decide) x) _)

/-- A save that succeeds does the same with a 32-bit `usize`. -/
theorem writePhase_sim {e : Env} {mp : Nat} {mv : MoovBounds} {p : Plan} {ol : Nat} {b : Bytes} {at' : List AtomData} {s s' : WSt}
    (hl : s.file.length < 2^31) (hb : s.buf = [])
    (h : writePhase mp mv p ol b at' e s = (.ok (), s')) : writePhase32 mp mv p ol b at' e s = (.ok (), s') := by
  unfold writePhase at h
  unfold writePhase32
  by_cases hc : mp > mv.bounds.pos
  · rw [if_pos hc] at h ⊢
    obtain ⟨_, s1, h1, h2⟩ := W.bind_inv h
    rw [W.bind_ok (NWSim.all (fun a => NWSim.patchStbl hl a) _ s s1 ⟨rfl, hb⟩ h1).1]
    exact h2
  · rw [if_neg hc] at h ⊢
    exact h

theorem preparePhase_sim {e : Env} {F : Bytes} (hM : e.maxPos < 2^63) (hF : F.length < 2^31) (at' : List AtomData) :
    NSim e F (preparePhase at') (preparePhase32 at') := by
  unfold preparePhase preparePhase32
  refine NSim.bind2 NSim.rfl fun mp mv => NSim.bind NSim.rfl fun pl => ?_
  intro p a q h
  obtain ⟨ol, q1, h1, h2⟩ := P.bind_inv h
  rw [P.bind_ok h1]
  have e1 : ol = F.length := by
    unfold seekEnd at h1
    cases h1; rfl
  obtain ⟨ml, q2, h3, h4⟩ := P.bind_inv h2
  rw [P.bind_ok h3]
  obtain ⟨h5, -⟩ := E.p_inv h3
  obtain ⟨_, q3, h6, h7⟩ := P.bind_inv h4
  obtain ⟨h8, e3⟩ := E.p_inv h6
  subst e3
  obtain ⟨_, q4, h9, h10⟩ := P.bind_inv h7
  have hb : pl.movedDataStart ≤ e.maxPos := by
    unfold seekStart at h9
    split at h9
    · assumption
    · cases h9
  have hm : ml < 2^63 := by
    unfold allocU8 at h8
    split at h8
    · cases h8
    · omega
  have hml : ml < 2^31 := by rcases subU_cases h5 with ⟨_, h⟩ | ⟨_, h⟩ <;> omega
  rw [show usize32 ml = ml from Nat.mod_eq_of_lt (by omega), P.bind_ok (alloc32_ok hml _), P.bind_ok h9]
  obtain ⟨b, q5, h11, h12⟩ := P.bind_inv h10
  have : readToEnd32 e F q4 = .ok (b, q5) := by
    unfold readToEnd32
    rw [if_neg (by omega)]
    exact h11
  rw [P.bind_ok this]
  exact h12

theorem writeTagTo_sim {e : Env} {F : Bytes} (hM : e.maxPos < 2^63) (hF : F.length < 2^31) {pos : Nat} {at' : List AtomData} {s : WSt}
    (h : writeTagTo e F pos at' = (.ok (), s)) : writeTagTo32 e F pos at' = (.ok (), s) := by
  unfold writeTagTo at h
  unfold writeTagTo32
  cases hp : preparePhase at' e F pos with
  | ok r =>
    obtain ⟨⟨mp, mv, p, ol, b⟩, q⟩ := r
    rw [preparePhase_sim hM hF at' _ _ _ hp]
    rw [hp] at h
    dsimp only at h ⊢
    obtain ⟨h1, h2⟩ := Prod.mk.inj h
    have : writePhase mp mv p ol b at' e { file := F, cur := e.rcur 0 } =
        (.ok (), (writePhase mp mv p ol b at' e { file := F, cur := e.rcur 0 }).2) := Prod.ext h1 rfl
    rw [writePhase_sim hF rfl this, h2]
  | err k => rw [hp] at h; cases (Prod.mk.inj h).1
  | panic => rw [hp] at h; cases (Prod.mk.inj h).1
  | fuel => rw [hp] at h; cases (Prod.mk.inj h).1

/-! ### The other direction, for saves -/

/-- Whenever the first computation succeeds, so does the second, with the same result. -/
def NBack (e : Env) (m' m : W Unit) : Prop := ∀ s s', m' e s = (.ok (), s') → m e s = (.ok (), s')

theorem NBack.bind {e : Env} {m m' f f' : W Unit} (h : NBack e m' m) (hf : NBack e f' f) : NBack e (do m'; f') (do m; f) := by
  intro s s' hb
  obtain ⟨_, s1, h1, h2⟩ := W.bind_inv hb
  rw [W.bind_ok (h s s1 h1)]
  exact hf s1 s' h2

theorem NBack.all {α} {e : Env} {f f' : α → W Unit} (h : ∀ a, NBack e (f' a) (f a)) (l : List α) : NBack e (wAll f' l) (wAll f l) := by
  induction l with
  | nil => exact fun _ _ h => h
  | cons a l ih => exact NBack.bind (h a) ih

theorem NBack.opt {α} {e : Env} {f f' : α → W Unit} (h : ∀ a, NBack e (f' a) (f a)) (x : Option α) : NBack e (wOpt f' x) (wOpt f x) := by
  cases x with
  | none => exact fun _ _ h => h
  | some a => exact h a

theorem parseTable_back {e : Env} {F : Bytes} (w : Nat) (s : Size) : NSim e F (parseTable32 w s) (parseTable w s) := by
  unfold Mp4.parseTable parseTable32
  refine NSim.bind2 NSim.rfl fun v _ => ?_
  dsimp only
  refine NSim.ite (NSim.bind NSim.rfl fun n => NSim.bind NSim.rfl fun c => NSim.ite NSim.rfl (NSim.bind NSim.rfl fun tp => ?_)) NSim.rfl
  intro p a q h
  obtain ⟨_, r, h1, h2⟩ := P.bind_inv h
  obtain ⟨_, rfl⟩ := E.p_inv h1
  exact h2

theorem NBack.patchTable {e : Env} {w : Nat} {d : Int} (a : AtomBounds) : NBack e (patchTable32 w d a) (patchTable w d a) := by
  intro s s' h
  unfold patchTable32 at h
  obtain ⟨pos, s1, h1, h2⟩ := W.bind_inv h
  obtain ⟨x, s2, h3, h4⟩ := W.bind_inv h2
  unfold Mp4.patchTable
  rw [W.bind_ok h1, W.bind_ok (wRead_sim (parseTable_back w a.size) h3)]
  exact h4

theorem NBack.patchStbl {e : Env} {d : Int} (a : StblBounds) : NBack e (patchStbl32 d a) (patchStbl d a) :=
  NBack.bind (NBack.opt NBack.patchTable _) (NBack.opt NBack.patchTable _)

theorem writePhase_back {e : Env} {mp : Nat} {mv : MoovBounds} {p : Plan} {ol : Nat} {b : Bytes} {at' : List AtomData} :
    NBack e (writePhase32 mp mv p ol b at') (writePhase mp mv p ol b at') := by
  intro s s' h
  unfold writePhase32 at h
  unfold writePhase
  by_cases hc : mp > mv.bounds.pos
  · rw [if_pos hc] at h ⊢
    obtain ⟨_, s1, h1, h2⟩ := W.bind_inv h
    rw [W.bind_ok (NBack.all NBack.patchStbl _ s s1 h1)]
    exact h2
  · rw [if_neg hc] at h ⊢
    exact h

theorem preparePhase_back {e : Env} {F : Bytes} (hc : e.checked = true) (hF : F.length < 2^63) (at' : List AtomData) :
    NSim e F (preparePhase32 at') (preparePhase at') := by
  unfold preparePhase preparePhase32
  refine NSim.bind2 NSim.rfl fun mp mv => NSim.bind NSim.rfl fun pl => ?_
  intro p a q h
  obtain ⟨ol, q1, h1, h2⟩ := P.bind_inv h
  rw [P.bind_ok h1]
  have e1 : ol = F.length := by
    unfold seekEnd at h1
    cases h1; rfl
  obtain ⟨ml, q2, h3, h4⟩ := P.bind_inv h2
  rw [P.bind_ok h3]
  obtain ⟨h5, -⟩ := E.p_inv h3
  obtain ⟨_, q3, h6, h7⟩ := P.bind_inv h4
  obtain ⟨h8, e3⟩ := E.p_inv h6
  subst e3
  have hml : ml < 2^63 := by
    unfold subU at h5
    split at h5
    · injection h5 with h5; omega
    · cases h5
  have : (allocU8 ml).p e F q2 = .ok ((), q2) := by simp [E.p, allocU8, Nat.not_le.mpr hml]
  rw [P.bind_ok this]
  obtain ⟨_, q4, h9, h10⟩ := P.bind_inv h7
  rw [P.bind_ok h9]
  obtain ⟨b, q5, h11, h12⟩ := P.bind_inv h10
  have : readToEnd e F q4 = .ok (b, q5) := by
    unfold readToEnd32 at h11
    split at h11
    · cases h11
    · exact h11
  rw [P.bind_ok this]
  exact h12

theorem writeTagTo_back {e : Env} {F : Bytes} (hc : e.checked = true) (hF : F.length < 2^63) {pos : Nat} {at' : List AtomData} {s : WSt}
    (h : writeTagTo32 e F pos at' = (.ok (), s)) : writeTagTo e F pos at' = (.ok (), s) := by
  unfold writeTagTo32 at h
  unfold writeTagTo
  cases hp : preparePhase32 at' e F pos with
  | ok r =>
    obtain ⟨⟨mp, mv, p, ol, b⟩, q⟩ := r
    rw [preparePhase_back hc hF at' _ _ _ hp]
    rw [hp] at h
    dsimp only at h ⊢
    obtain ⟨h1, h2⟩ := Prod.mk.inj h
    have : writePhase32 mp mv p ol b at' e { file := F, cur := e.rcur 0 } =
        (.ok (), (writePhase32 mp mv p ol b at' e { file := F, cur := e.rcur 0 }).2) := Prod.ext h1 rfl
    rw [writePhase_back _ _ this, h2]
  | err k => rw [hp] at h; cases (Prod.mk.inj h).1
  | panic => rw [hp] at h; cases (Prod.mk.inj h).1
  | fuel => rw [hp] at h; cases (Prod.mk.inj h).1

end Mp4
