import Verif.Proof.Fault
import Verif.Proof.PutPut
import Verif.Proof.NoPanic
/-
Writing when the file keeps its length: before the item list is written, all system calls write what is already there.
-/
namespace Mp4
open Spec

/-- Applied to `F` the system call changes nothing. -/
def Op.Agrees (F : Bytes) : Op → Prop
  | .write off b => At F off b
  | .setLen n => n = F.length

theorem writeAt_of_at {F off b} (h : At F off b) : writeAt F off b = F := by
  obtain ⟨A, B, rfl, hA⟩ := h.elim
  exact writeAt_part A b b B rfl hA

theorem Op.Agrees.apply {F : Bytes} {op : Op} (h : op.Agrees F) : Op.apply F op = F := by
  cases op with
  | write off b => exact writeAt_of_at h
  | setLen n =>
    have h : n = F.length := h
    subst h
    simp [Op.apply, fileSetLen]

theorem foldl_agrees {F : Bytes} {ops : List Op} (h : ∀ op ∈ ops, op.Agrees F) : ops.foldl Op.apply F = F := by
  induction ops with
  | nil => rfl
  | cons op ops ih =>
    rw [List.foldl_cons, (h op (by simp)).apply]
    exact ih fun o ho => h o (by simp [ho])

/-- The bytes `b`, if any, are found at `p`. -/
def At0 (F : Bytes) (p : Nat) (b : Bytes) : Prop := b ≠ [] → At F p b

theorem At0_append {F p a b} : At0 F p (a ++ b) ↔ At0 F p a ∧ At0 F (p + a.length) b := by
  unfold At0
  constructor
  · intro h
    exact ⟨fun ha => (At_append.mp (h (by simp [ha]))).1, fun hb => (At_append.mp (h (by simp [hb]))).2⟩
  · rintro ⟨h1, h2⟩ hne
    by_cases ha : a = []
    · subst ha; exact h2 (by simpa using hne)
    · by_cases hb : b = []
      · subst hb; rw [List.append_nil]; exact h1 ha
      · exact At_append.mpr ⟨h1 ha, h2 hb⟩

/-- The system calls lead from `F` to the file, those behind `tr` write what is in `T`, and so would writing what is in the
buffer. -/
structure Steady (F T : Bytes) (tr : List Op) (s : FSt) : Prop where
  replay : s.trace.foldl Op.apply F = s.file
  ops : ∃ B, s.trace = tr ++ B ∧ ∀ op ∈ B, op.Agrees T
  pend : At0 T s.cur s.buf

theorem Steady.congr {F T tr} {s s' : FSt} (h : Steady F T tr s) (h1 : s'.trace = s.trace) (h2 : s'.file = s.file)
    (h3 : At0 T s'.cur s'.buf) : Steady F T tr s' := ⟨by rw [h1, h2]; exact h.replay, by rw [h1]; exact h.ops, h3⟩

/-- Started in a state with `P`, a success leads to `J` and anything else to `X`. -/
def Hoare {α} (fl : Faults) (e : Env) (P : FSt → Prop) (c : FW α) (J : α → FSt → Prop) (X : FSt → Prop) : Prop :=
  ∀ s, P s → (∀ a, (c fl e s).1 = .ok a → J a (c fl e s).2) ∧ ((∀ a, (c fl e s).1 ≠ .ok a) → X (c fl e s).2)

theorem Hoare.bind {α β fl e P X} {J : α → FSt → Prop} {K : β → FSt → Prop} {c : FW α} {f : α → FW β}
    (h1 : Hoare fl e P c J X) (h2 : ∀ a, Hoare fl e (J a) (f a) K X) : Hoare fl e P (c >>= f) K X := by
  intro s hs
  obtain ⟨k1, k2⟩ := h1 s hs
  rw [FW.bind_def, FW.bind]
  rcases hc : c fl e s with ⟨r, s'⟩
  rw [hc] at k1 k2
  cases r with
  | ok a => exact h2 a s' (k1 a rfl)
  | err k => exact ⟨(fun a h => by cases h), fun _ => k2 (fun _ h => by cases h)⟩
  | panic => exact ⟨(fun a h => by cases h), fun _ => k2 (fun _ h => by cases h)⟩
  | fuel => exact ⟨(fun a h => by cases h), fun _ => k2 (fun _ h => by cases h)⟩

theorem Hoare.conseq {α fl e P P' X X'} {J J' : α → FSt → Prop} {c : FW α} (h : Hoare fl e P c J X) (h1 : ∀ s, P' s → P s)
    (h2 : ∀ a s, J a s → J' a s) (h3 : ∀ s, X s → X' s) : Hoare fl e P' c J' X' := fun s hs =>
  ⟨fun a ha => h2 a _ ((h s (h1 s hs)).1 a ha), fun ha => h3 _ ((h s (h1 s hs)).2 ha)⟩

theorem Hoare.pure {α fl e P X} (a : α) : Hoare fl e P (Pure.pure a : FW α) (fun _ => P) X := fun _ hs =>
  ⟨fun _ _ => hs, fun h => absurd rfl (h a)⟩

theorem Hoare.E {α fl e X} {P : FSt → Prop} {x : E α} (h : ∀ s, P s → X s) : Hoare fl e P x.fw (fun a s => P s ∧ x e = .ok a) X := fun s hs =>
  ⟨fun _ h => ⟨hs, h⟩, fun _ => h s hs⟩

/-- The place where the next byte is written. -/
def writesAt (p : Nat) (s : FSt) : Prop := s.cur + s.buf.length = p

/-- Nothing is buffered and the next byte is written at `p`. -/
def seated (p : Nat) (s : FSt) : Prop := s.buf = [] ∧ s.cur = p

section
variable {F T : Bytes} {tr : List Op} {fl : Faults} {e : Env}

theorem Steady.sysWrite {s : FSt} (h : Steady F T tr s) {b : Bytes} {k : Nat} (hb : At0 T s.cur b) (rest : Bytes)
    (hr : At0 T (s.cur + b.length) rest) : Steady F T tr { toWSt := { s.toWSt.sysWrite b with buf := rest }, tick := k } := by
  unfold WSt.sysWrite
  split
  · rename_i he
    rw [List.isEmpty_iff.mp he, List.length_nil, Nat.add_zero] at hr
    exact ⟨h.replay, h.ops, hr⟩
  · rename_i he
    obtain ⟨B, hB, hB'⟩ := h.ops
    refine ⟨?_, ⟨B ++ [.write s.cur b], ?_, ?_⟩, hr⟩
    · dsimp only
      rw [List.foldl_append, h.replay]; rfl
    · dsimp only
      rw [hB, List.append_assoc]
    · intro op hop
      rcases List.mem_append.mp hop with hop | hop
      · exact hB' op hop
      · rw [List.mem_singleton] at hop
        subst hop
        exact hb fun h => he (by rw [h]; rfl)

theorem fFlushBuf_hoare {p : Nat} : Hoare fl e (fun s => Steady F T tr s ∧ writesAt p s) fFlushBuf (fun _ s => Steady F T tr s ∧ seated p s) (Steady F T tr) := by
  rintro s ⟨hs, hp⟩
  unfold fFlushBuf
  split
  · rename_i hb
    have hb := List.isEmpty_iff.mp hb
    refine ⟨fun _ _ => ⟨hs, hb, ?_⟩, fun h => absurd rfl (h ())⟩
    unfold writesAt at hp
    rw [hb] at hp
    exact hp
  · split
    · refine ⟨fun _ _ => ⟨hs.sysWrite hs.pend [] (fun h => absurd rfl h), rfl, ?_⟩, fun h => absurd rfl (h ())⟩
      show (s.toWSt.sysWrite s.buf).cur = p
      rw [sysWrite_cur]; exact hp
    · rename_i n _
      refine ⟨(fun _ h => by cases h), fun _ => ?_⟩
      have h := hs.pend
      rw [← List.take_append_drop n s.buf, At0_append] at h
      exact hs.sysWrite h.1 _ h.2

theorem Steady.drop {s : FSt} (h : Steady F T tr s) : Steady F T tr (fDrop fl e s) := by
  unfold fDrop
  obtain ⟨h1, h2⟩ := fFlushBuf_hoare (p := s.cur + s.buf.length) (fl := fl) (e := e) s ⟨h, rfl⟩
  rcases hc : (fFlushBuf fl e s).1 with a | k | _ | _
  · exact (h1 a hc).1
  all_goals exact h2 fun a ha => by rw [hc] at ha; cases ha

theorem seek_hoare {p : Nat} (g : Nat → Nat) : Hoare fl e (fun s => Steady F T tr s ∧ seated p s)
    (fun _ e s => if g s.cur ≤ e.maxPos then (.ok (), { s with cur := g s.cur }) else (.err .io, s) : FW Unit)
    (fun _ s => Steady F T tr s ∧ seated (g p) s) (Steady F T tr) := by
  intro s hs
  show (∀ a, (if g s.cur ≤ e.maxPos then (.ok (), { s with cur := g s.cur }) else (.err .io, s) : Out Unit × FSt).1 = .ok a →
      Steady F T tr (if g s.cur ≤ e.maxPos then (.ok (), { s with cur := g s.cur }) else (.err .io, s) : Out Unit × FSt).2 ∧
      seated (g p) (if g s.cur ≤ e.maxPos then (.ok (), { s with cur := g s.cur }) else (.err .io, s) : Out Unit × FSt).2) ∧
    ((∀ a, (if g s.cur ≤ e.maxPos then (.ok (), { s with cur := g s.cur }) else (.err .io, s) : Out Unit × FSt).1 ≠ .ok a) →
      Steady F T tr (if g s.cur ≤ e.maxPos then (.ok (), { s with cur := g s.cur }) else (.err .io, s) : Out Unit × FSt).2)
  split
  · exact ⟨fun _ _ => ⟨hs.1.congr rfl rfl (fun h => absurd hs.2.1 h), hs.2.1, by rw [← hs.2.2]⟩, fun h => absurd rfl (h ())⟩
  · exact ⟨(fun _ h => by cases h), fun _ => hs.1⟩

theorem fSeekStart_hoare {n : Nat} : Hoare fl e (Steady F T tr) (fSeekStart n) (fun _ s => Steady F T tr s ∧ seated n s) (Steady F T tr) := by
  intro s hs
  have := Hoare.bind (fFlushBuf_hoare (F := F) (T := T) (tr := tr) (fl := fl) (e := e) (p := s.cur + s.buf.length)) (fun _ => seek_hoare fun _ => n)
  exact this s ⟨hs, rfl⟩

theorem fSeekCur_hoare {n p : Nat} : Hoare fl e (fun s => Steady F T tr s ∧ writesAt p s) (fSeekCur n) (fun _ s => Steady F T tr s ∧ seated (p + n) s)
    (Steady F T tr) := Hoare.bind fFlushBuf_hoare fun _ => seek_hoare fun c => c + n

theorem seated.next {p : Nat} {s : FSt} (h : seated p s) : writesAt p s := by
  unfold writesAt; rw [h.1, h.2]; rfl

theorem Steady.push {p : Nat} {b : Bytes} {s : FSt} (hs : Steady F T tr s) (hp : writesAt p s) (hb : At0 T p b) :
    Steady F T tr { s with buf := s.buf ++ b } ∧ writesAt (p + b.length) { s with buf := s.buf ++ b } := by
  unfold writesAt at hp
  refine ⟨hs.congr rfl rfl (At0_append.mpr ⟨hs.pend, by rw [hp]; exact hb⟩), ?_⟩
  unfold writesAt
  dsimp only
  rw [List.length_append]; omega

theorem fWriteDirect_hoare {p : Nat} {b : Bytes} (hb : At0 T p b) :
    Hoare fl e (fun s => Steady F T tr s ∧ writesAt p s ∧ (e.cap ≤ b.length → b = [] ∨ s.buf = [])) (fWriteDirect b)
      (fun _ s => Steady F T tr s ∧ writesAt (p + b.length) s) (Steady F T tr) := by
  rintro s ⟨hs, hp, hc⟩
  unfold fWriteDirect
  split
  · rename_i hge
    unfold fSysWrite
    split
    · rename_i he
      rw [List.isEmpty_iff.mp he]
      exact ⟨fun _ _ => ⟨hs, hp⟩, fun h => absurd rfl (h ())⟩
    · rename_i he
      have hbuf : s.buf = [] := (hc hge).resolve_left fun h => he (by rw [h]; rfl)
      have hcur : s.cur = p := by unfold writesAt at hp; rw [hbuf] at hp; exact hp
      have key : ∀ b' k, At0 T p b' → Steady F T tr { toWSt := s.toWSt.sysWrite b', tick := k } := by
        intro b' k hb'
        have := hs.sysWrite (k := k) (b := b') (by rw [hcur]; exact hb') [] (fun h => absurd rfl h)
        refine this.congr rfl rfl ?_
        dsimp only
        rw [sysWrite_buf, hbuf]
        exact fun h => absurd rfl h
      split
      · refine ⟨fun _ _ => ⟨key b _ hb, ?_⟩, fun h => absurd rfl (h ())⟩
        show (s.toWSt.sysWrite b).cur + (s.toWSt.sysWrite b).buf.length = _
        rw [sysWrite_cur, sysWrite_buf, hbuf, hcur]; rfl
      · rename_i n _
        refine ⟨(fun _ h => by cases h), fun _ => key _ _ ?_⟩
        rw [← List.take_append_drop n b, At0_append] at hb
        exact hb.1
  · exact ⟨fun _ _ => hs.push hp hb, fun h => absurd rfl (h ())⟩

theorem fWriteAll_hoare {p : Nat} {b : Bytes} (hb : At0 T p b) :
    Hoare fl e (fun s => Steady F T tr s ∧ writesAt p s) (fWriteAll b) (fun _ s => Steady F T tr s ∧ writesAt (p + b.length) s) (Steady F T tr) := by
  rintro s ⟨hs, hp⟩
  unfold fWriteAll
  split
  · exact ⟨fun _ _ => hs.push hp hb, fun h => absurd rfl (h ())⟩
  · split
    · exact Hoare.bind fFlushBuf_hoare (fun _ => (fWriteDirect_hoare hb).conseq (fun s h => ⟨h.1, h.2.next, fun _ => .inr h.2.1⟩)
        (fun _ _ h => h) (fun _ h => h)) s ⟨hs, hp⟩
    · refine fWriteDirect_hoare hb s ⟨hs, hp, fun hc => ?_⟩
      rcases Nat.eq_zero_or_pos b.length with h0 | h0
      · exact .inl (List.length_eq_zero_iff.mp h0)
      · refine .inr (List.length_eq_zero_iff.mp ?_)
        omega

theorem fAll_hoare {α : Type} {f : α → FW Unit} {g : α → Bytes} (hf : ∀ a p, At0 T p (g a) →
    Hoare fl e (fun s => Steady F T tr s ∧ writesAt p s) (f a) (fun _ s => Steady F T tr s ∧ writesAt (p + (g a).length) s) (Steady F T tr)) :
    ∀ (l : List α) (p : Nat), At0 T p (l.flatMap g) →
    Hoare fl e (fun s => Steady F T tr s ∧ writesAt p s) (fAll f l) (fun _ s => Steady F T tr s ∧ writesAt (p + (l.flatMap g).length) s) (Steady F T tr)
  | [], p, _ => .pure ()
  | x :: xs, p, h => by
    rw [List.flatMap_cons, At0_append] at h
    refine .bind (hf x p h.1) fun _ => (fAll_hoare hf xs _ h.2).conseq (fun _ h => h) (fun _ s h => ⟨h.1, ?_⟩) (fun _ h => h)
    have h2 := h.2
    unfold writesAt at h2 ⊢
    rw [List.flatMap_cons, List.length_append]; omega

theorem fEmit_hoare {p : Nat} {w : Wr Unit} {b : Bytes} (hw : Emits w b) (hb : At0 T p b) :
    Hoare fl e (fun s => Steady F T tr s ∧ writesAt p s) (fEmit w) (fun _ s => Steady F T tr s ∧ writesAt (p + b.length) s) (Steady F T tr) := by
  intro s hs
  obtain ⟨cs, h1, h2⟩ := hw e
  have key := fAll_hoare (g := id) (F := F) (T := T) (tr := tr) (fl := fl) (e := e) (fun b p h => fWriteAll_hoare (p := p) (b := b) h) cs p
    (by rw [List.flatMap_id, h2]; exact hb) s hs
  rw [List.flatMap_id, h2] at key
  unfold fEmit
  rw [h1]
  dsimp only
  rcases hc : fAll fWriteAll cs fl e s with ⟨r, s'⟩
  rw [hc] at key
  cases r with
  | ok a => exact ⟨fun _ _ => key.1 a rfl, fun h => absurd rfl (h ())⟩
  | err k => exact ⟨(fun a h => by cases h), fun _ => key.2 (fun _ h => by cases h)⟩
  | panic => exact ⟨(fun a h => by cases h), fun _ => key.2 (fun _ h => by cases h)⟩
  | fuel => exact ⟨(fun a h => by cases h), fun _ => key.2 (fun _ h => by cases h)⟩

theorem fSetLen_hoare : Hoare fl e (Steady F T tr) (fSetLen T.length) (fun _ => Steady F T tr) (Steady F T tr) := by
  intro s hs
  unfold fSetLen
  split
  · split
    · refine ⟨fun _ _ => ?_, fun h => absurd rfl (h ())⟩
      obtain ⟨B, hB, hB'⟩ := hs.ops
      refine ⟨?_, ⟨B ++ [.setLen T.length], ?_, ?_⟩, hs.pend⟩
      · dsimp only
        rw [List.foldl_append, hs.replay]; rfl
      · dsimp only
        rw [hB, List.append_assoc]
      · intro op hop
        rcases List.mem_append.mp hop with hop | hop
        · exact hB' op hop
        · rw [List.mem_singleton] at hop
          subst hop
          rfl
    · exact ⟨(fun _ h => by cases h), fun _ => hs.congr rfl rfl hs.pend⟩
  · exact ⟨(fun _ h => by cases h), fun _ => hs⟩

end

/-! ### Before the item list is written -/

theorem Steady.file_eq {F : Bytes} {s : FSt} (h : Steady F F [] s) : s.file = F := by
  obtain ⟨B, hB, hB'⟩ := h.ops
  rw [← h.replay, hB, List.nil_append, foldl_agrees hB']

/-- Nothing is buffered. -/
def emptied (s : FSt) : Prop := s.buf = []

theorem seek_emptied {F T tr fl e} (n : Nat) : Hoare fl e (fun s => Steady F T tr s ∧ emptied s)
    (fun _ e s => if n ≤ e.maxPos then (.ok (), { s with cur := n }) else (.err .io, s) : FW Unit)
    (fun _ s => Steady F T tr s ∧ seated n s) (Steady F T tr) := fun s hs =>
  (seek_hoare (F := F) (T := T) (tr := tr) (fl := fl) (e := e) (p := s.cur) fun _ => n) s ⟨hs.1, hs.2, rfl⟩

theorem fRead_hoare {α : Type} {F : Bytes} {fl e} {pos : Nat} {p : P α} :
    Hoare fl e (fun s => Steady F F [] s ∧ emptied s) (fRead pos p) (fun a s => (Steady F F [] s ∧ emptied s) ∧ ∃ q, p e F pos = .ok (a, q)) (Steady F F []) := by
  rintro s ⟨hs, hb⟩
  have hs' : ∀ c k, Steady F F [] { s with cur := c, tick := k } := fun c k => hs.congr rfl rfl (fun h => absurd hb h)
  unfold fRead
  dsimp only
  rw [hs.file_eq]
  split
  · split
    · rename_i hq
      refine ⟨fun a ha => ⟨⟨?_, hb⟩, ?_⟩, fun h => absurd rfl (h _)⟩
      · exact (hs' _ _).congr rfl hs.file_eq.symm (fun h => absurd hb h)
      · cases ha
        obtain ⟨u, p1, hq1, hq2⟩ := P.bind_inv hq
        rw [seekStart] at hq1
        split at hq1
        · cases hq1
          exact ⟨_, hq2⟩
        · cases hq1
    all_goals exact ⟨(fun _ h => by cases h), fun _ => (hs' _ _).congr rfl hs.file_eq.symm (fun h => absurd hb h)⟩
  · exact ⟨(fun _ h => by cases h), fun _ => (hs' _ _).congr rfl hs.file_eq.symm (fun h => absurd hb h)⟩

theorem readTable_at0 {e F} (w : Nat) : ∀ n p l q, readTable w n e F p = .ok (l, q) → At0 F p (l.flatMap (toBe w))
  | 0, p, l, q, h => by
    obtain ⟨rfl, -⟩ := P.pure_inv h
    exact fun h => absurd rfl h
  | n+1, p, l, q, h => by
    rw [readTable] at h
    obtain ⟨b, q1, h1, h⟩ := P.bind_inv h
    obtain ⟨r, q2, h2, h⟩ := P.bind_inv h
    obtain ⟨rfl, -⟩ := P.pure_inv h
    obtain ⟨hb, rfl, hl⟩ := readExact_inv h1
    have ih := readTable_at0 w n _ _ _ h2
    rw [List.flatMap_cons]
    by_cases hw : w = 0
    · subst hw
      have : ∀ m, toBe 0 m = [] := fun m => rfl
      intro hne
      exact absurd (by simp [this]) hne
    · have hle : p + w ≤ F.length := hl.resolve_left hw
      have hlen : b.length = w := by rw [hb, List.length_take, List.length_drop]; omega
      have h3 : toBe w (beNat b) = b := by conv => lhs; rw [← hlen]
                                           exact toBe_beNat b
      rw [h3, At0_append, hlen]
      exact ⟨fun _ => by rw [hb]; exact At_take hle, ih⟩

theorem parseTable_at0 {w : Nat} {size : Size} {e F p tp os q} (h : parseTable w size e F p = .ok ((tp, os), q)) :
    At0 F tp (os.flatMap (toBe w)) ∧ ∀ o ∈ os, o < 256 ^ w := by
  unfold parseTable at h
  obtain ⟨⟨v, fl⟩, p1, h1, h2⟩ := P.bind_inv h
  dsimp only at h2
  split at h2
  · obtain ⟨n, p2, h3, h4⟩ := P.bind_inv h2
    obtain ⟨cl, p3, h5, h6⟩ := P.bind_inv h4
    split at h6
    · cases h6
    · obtain ⟨t, p4, h7, h8⟩ := P.bind_inv h6
      cases h7
      obtain ⟨o, p5, h9, h10⟩ := P.bind_inv h8
      obtain ⟨h11, -⟩ := P.pure_inv h10
      cases h11
      exact ⟨readTable_at0 w _ _ _ _ h9, readTable_lt w _ _ _ _ _ h9⟩
  · cases h2

theorem asI64_bounds {n : Nat} (h : n < 2^64) : -2^63 ≤ asI64 n ∧ asI64 n < 2^63 := by
  unfold asI64; split <;> omega

/-- An offset that is not moved. -/
theorem addI_zero {e : Env} {n : Nat} {k : Int} (hn : n < 2^64) (h : addI (asI64 n) 0 e = .ok k) : asU64 k = n := by
  have hr := asI64_bounds hn
  rw [addI_ok e (by omega) (by omega)] at h
  cases h
  unfold asU64 asI64
  split <;> omega

theorem fPatchTable_hoare {F : Bytes} {fl e} {w : Nat} (hw : w = 4 ∨ w = 8) {a : AtomBounds} :
    Hoare fl e (fun s => Steady F F [] s ∧ emptied s) (fPatchTable w 0 a) (fun _ s => Steady F F [] s ∧ emptied s) (Steady F F []) := by
  refine .bind (.E fun _ h => h.1) fun pos => ?_
  refine .bind (fRead_hoare.conseq (fun s h => h.1) (fun _ _ h => h) (fun _ h => h)) fun r => ?_
  obtain ⟨tp, os⟩ := r
  dsimp only
  by_cases hr : ∃ q, parseTable w a.size e F pos = .ok ((tp, os), q)
  · obtain ⟨q, hq⟩ := hr
    obtain ⟨h1, h2⟩ := parseTable_at0 hq
    refine .bind (fSeekStart_hoare.conseq (fun s h => h.1.1) (fun _ _ h => h) (fun _ h => h)) fun _ => ?_
    refine .bind (J := fun _ s => Steady F F [] s ∧ writesAt (tp + (os.flatMap (toBe w)).length) s) ?_ fun _ =>
      fFlushBuf_hoare.conseq (fun _ h => h) (fun _ s h => ⟨h.1, h.2.1⟩) (fun _ h => h)
    have key : ∀ (l : List Nat) (p : Nat), (∀ o ∈ l, o < 256 ^ w) → At0 F p (l.flatMap (toBe w)) →
        Hoare fl e (fun s => Steady F F [] s ∧ writesAt p s) (fAll (fun co => do
          let n ← (addI (asI64 co) 0).fw
          fWriteAll (toBe w (asU64 n))) l) (fun _ s => Steady F F [] s ∧ writesAt (p + (l.flatMap (toBe w)).length) s) (Steady F F []) := by
      intro l
      induction l with
      | nil => exact fun p _ _ => .pure ()
      | cons x xs ih =>
        intro p hlt h
        rw [List.flatMap_cons, At0_append] at h
        refine .bind (J := fun _ s => Steady F F [] s ∧ writesAt (p + (toBe w x).length) s) (.bind (.E fun _ h => h.1) fun n => ?_) fun _ =>
          (ih _ (fun o ho => hlt o (by simp [ho])) h.2).conseq (fun _ h => h) (fun _ s h => ⟨h.1, ?_⟩) (fun _ h => h)
        · by_cases hn : addI (asI64 x) 0 e = .ok n
          · have hx : x < 2^64 := by
              have := hlt x (by simp)
              rcases hw with rfl | rfl <;> omega
            rw [addI_zero hx hn]
            exact (fWriteAll_hoare h.1).conseq (fun _ h => h.1) (fun _ _ h => h) (fun _ h => h)
          · exact fun s hs => absurd hs.2 hn
        · have h2 := h.2
          unfold writesAt at h2 ⊢
          rw [List.flatMap_cons, List.length_append]; omega
    exact (key os tp h2 h1).conseq (fun _ h => ⟨h.1, h.2.next⟩) (fun _ _ h => h) (fun _ h => h)
  · exact fun s hs => absurd hs.2 hr

theorem fOpt_hoare {α : Type} {fl e P X} {f : α → FW Unit} (h : ∀ a, Hoare fl e P (f a) (fun _ => P) X) (x : Option α) :
    Hoare fl e P (fOpt f x) (fun _ => P) X := by
  cases x with
  | none => exact .pure ()
  | some a => exact h a

theorem fAll_hoare' {α : Type} {fl e P X} {f : α → FW Unit} : ∀ (l : List α), (∀ a ∈ l, Hoare fl e P (f a) (fun _ => P) X) →
    Hoare fl e P (fAll f l) (fun _ => P) X
  | [], _ => .pure ()
  | x :: xs, h => .bind (h x (by simp)) fun _ => fAll_hoare' xs fun a ha => h a (by simp [ha])

/-- The head of an atom is in the file. -/
def HeadIn (F : Bytes) (a : AtomBounds) : Prop :=
  a.size.len < 2^63 ∧ if a.size.ext then At F a.pos (toBe 4 1) ∧ At F (a.pos + 8) (toBe 8 a.size.len) else At F a.pos (toBe 4 a.size.len)

theorem fPatchHead_hoare {F : Bytes} {fl e} {a : AtomBounds} (h : HeadIn F a) :
    Hoare fl e (Steady F F []) (fPatchHead 0 a) (fun _ => Steady F F []) (Steady F F []) := by
  obtain ⟨hlt, hat⟩ := h
  refine .bind (.E fun _ h => h) fun n => ?_
  by_cases hn : addI (asI64 a.size.len) 0 e = .ok n
  · have h64 := addI_zero (by omega) hn
    have h32 : toBe 4 (asU32 n) = toBe 4 a.size.len := by
      rw [← h64, ← toBe_mod 4 (asU64 n), ← toBe_mod 4 (asU32 n)]
      congr 1
      unfold asU32 asU64
      omega
    refine .bind (fSeekStart_hoare.conseq (fun _ h => h.1) (fun _ _ h => h) (fun _ h => h)) fun _ => ?_
    split at hat
    · rename_i hext
      rw [if_pos hext, h64]
      refine .bind ((fWriteAll_hoare (fun _ => hat.1)).conseq (fun _ h => ⟨h.1, h.2.next⟩) (fun _ _ h => h) (fun _ h => h)) fun _ =>
        .bind fSeekCur_hoare fun _ => (fWriteAll_hoare (p := a.pos + (toBe 4 1).length + 4) (fun _ => ?_)).conseq (fun _ h => ⟨h.1, h.2.next⟩) (fun _ _ h => h.1) (fun _ h => h)
      exact hat.2
    · rename_i hext
      rw [if_neg hext, h32]
      exact (fWriteAll_hoare (fun _ => hat)).conseq (fun _ h => ⟨h.1, h.2.next⟩) (fun _ _ h => h.1) (fun _ h => h)
  · exact fun s hs => absurd hs.2 hn

/-- Writing up to the item list, and then `rest`. -/
theorem fWritePhase_front {F : Bytes} {fl e mp moov} {p : Plan} {moved atoms J X} (hd : p.lenDiff = 0) (hF : F.length < 2^63)
    (hh : ∀ a ∈ p.updateAtoms, HeadIn F a) (hX : ∀ s, Steady F F [] s → X s)
    (hrest : Hoare fl e (fun s => Steady F F [] s ∧ seated p.newAtomsStart s) (do
      fEmit (newAtomsWr p atoms)
      let m ← (addI (asI64 p.movedDataStart) p.lenDiff).fw
      fSeekStart (asU64 m)
      fWriteAll moved
      fFlush) J X) :
    Hoare fl e (fun s => Steady F F [] s ∧ emptied s) (fWritePhase mp moov p F.length moved atoms) J X := by
  have key : Hoare fl e (Steady F F []) (do
      fAll (fPatchHead p.lenDiff) p.updateAtoms.reverse
      let n ← (addI (asI64 F.length) p.lenDiff).fw
      fSetLen (asU64 n)
      fSeekStart p.newAtomsStart
      fEmit (newAtomsWr p atoms)
      let m ← (addI (asI64 p.movedDataStart) p.lenDiff).fw
      fSeekStart (asU64 m)
      fWriteAll moved
      fFlush) J X := by
    rw [hd] at hrest ⊢
    refine .bind ((fAll_hoare' _ fun a ha => fPatchHead_hoare (hh a (List.mem_reverse.mp ha))).conseq (fun _ h => h) (fun _ _ h => h) hX) fun _ =>
      .bind (.E hX) fun n => ?_
    by_cases hn : addI (asI64 F.length) 0 e = .ok n
    · rw [addI_zero (by omega) hn]
      exact .bind (fSetLen_hoare.conseq (fun _ h => h.1) (fun _ _ h => h) hX) fun _ =>
        .bind (fSeekStart_hoare.conseq (fun _ h => h) (fun _ _ h => h) hX) fun _ => hrest
    · exact fun s hs => absurd hs.2 hn
  unfold fWritePhase
  split
  · refine .bind (J := fun _ s => Steady F F [] s ∧ emptied s) ?_ fun _ => key.conseq (fun _ h => h.1) (fun _ _ h => h) (fun _ h => h)
    refine (fAll_hoare' _ fun s _ => ?_).conseq (fun _ h => h) (fun _ _ h => h) hX
    unfold fPatchStbl
    rw [hd]
    exact .bind (fOpt_hoare (fun a => fPatchTable_hoare (.inl rfl)) _) fun _ => fOpt_hoare (fun a => fPatchTable_hoare (.inr rfl)) _
  · exact key.conseq (fun _ h => h.1) (fun _ _ h => h) (fun _ h => h)

/-! ### The item list and what is behind it -/

/-- How the file may have been changed so far: not at all, or the new file is being written. -/
def Halfway (F G : Bytes) (s : FSt) : Prop := Steady F F [] s ∨ ∃ A, (∀ op ∈ A, op.Agrees F) ∧ Steady F G A s

theorem Halfway.drop {F G : Bytes} {fl e} {s : FSt} (h : Halfway F G s) : Halfway F G (fDrop fl e s) := by
  rcases h with h | ⟨A, hA, h⟩
  · exact .inl h.drop
  · exact .inr ⟨A, hA, h.drop⟩

theorem Steady.ops_agree {F : Bytes} {s : FSt} (h : Steady F F [] s) : ∀ op ∈ s.trace, op.Agrees F := by
  obtain ⟨B, hB, hB'⟩ := h.ops
  rw [hB]
  exact hB'

/-- The remaining calls once the first of them may have been issued. -/
theorem fWritePhase_back {F G : Bytes} {tr fl e} {m : Nat} {moved : Bytes} {X : FSt → Prop} (hm : m < 2^63) (hmv : At0 G m moved) (hX : ∀ s, Steady F G tr s → X s) :
    Hoare fl e (Steady F G tr) (do
      let m ← (addI (asI64 m) 0).fw
      fSeekStart (asU64 m)
      fWriteAll moved
      fFlush) (fun _ => Steady F G tr) X := by
  refine .bind (.E hX) fun n => ?_
  by_cases hn : addI (asI64 m) 0 e = .ok n
  · rw [addI_zero (by omega) hn]
    exact .bind (fSeekStart_hoare.conseq (fun _ h => h.1) (fun _ _ h => h) hX) fun _ =>
      .bind ((fWriteAll_hoare hmv).conseq (fun _ h => ⟨h.1, h.2.next⟩) (fun _ _ h => h) hX) fun _ =>
        fFlushBuf_hoare.conseq (fun _ h => h) (fun _ _ h => h.1) hX
  · exact fun s hs => absurd hs.2 hn

theorem fWritePhase_near {F G : Bytes} {fl e} {p : Plan} {moved N atoms} (hd : p.lenDiff = 0) (hm : p.movedDataStart < 2^63)
    (hw : Emits (newAtomsWr p atoms) N) (hN : At0 G p.newAtomsStart N) (hmv : At0 G p.movedDataStart moved) :
    Hoare fl e (fun s => Steady F F [] s ∧ seated p.newAtomsStart s) (do
      fEmit (newAtomsWr p atoms)
      let m ← (addI (asI64 p.movedDataStart) p.lenDiff).fw
      fSeekStart (asU64 m)
      fWriteAll moved
      fFlush) (fun _ => Halfway F G) (Halfway F G) := by
  rintro s ⟨hs, hb, hc⟩
  have hA := hs.ops_agree
  generalize hA' : s.trace = A at hA
  have hG : Steady F G A s := ⟨hs.replay, ⟨[], by rw [hA', List.append_nil], fun _ h => by cases h⟩, fun h => absurd hb h⟩
  have hX : ∀ s, Steady F G A s → Halfway F G s := fun s h => .inr ⟨A, hA, h⟩
  rw [hd]
  have key := Hoare.bind ((fEmit_hoare (F := F) (tr := A) (fl := fl) (e := e) hw hN).conseq (fun _ h => h) (fun _ _ h => h.1) hX) fun _ =>
    fWritePhase_back hm hmv hX
  exact key.conseq (fun _ h => h) (fun _ => hX) (fun _ h => h) s ⟨hG, seated.next ⟨hb, hc⟩⟩

/-- A buffer that is large enough takes everything. -/
theorem fAll_buffered {fl e} : ∀ (l : List Bytes) (s : FSt), s.buf.length + l.flatten.length < e.cap →
    fAll fWriteAll l fl e s = (.ok (), { s with buf := s.buf ++ l.flatten })
  | [], s, _ => by simp only [List.flatten_nil, List.append_nil]; rfl
  | x :: xs, s, h => by
    rw [List.flatten_cons, List.length_append] at h
    have h1 : fWriteAll x fl e s = (.ok (), { s with buf := s.buf ++ x }) := by
      unfold fWriteAll
      rw [if_pos (by omega)]
    show FW.bind (fWriteAll x) (fun _ => fAll fWriteAll xs) fl e s = _
    rw [FW.bind, h1]
    dsimp only
    rw [fAll_buffered xs _ (by dsimp only; rw [List.length_append]; omega)]
    simp only [List.flatten_cons, List.append_assoc]

/-- The system calls: none that changes anything; the new item list is in the buffer; or it has been written with one call. -/
def Single (F G : Bytes) (q : Nat) (N : Bytes) (s : FSt) : Prop :=
  Steady F F [] s ∨ (s.trace.foldl Op.apply F = s.file ∧ (∀ op ∈ s.trace, op.Agrees F) ∧ s.buf = N ∧ s.cur = q) ∨
    ∃ A, (∀ op ∈ A, op.Agrees F) ∧ Steady F G (A ++ [.write q N]) s

theorem single_flush {F G : Bytes} {q : Nat} {N : Bytes} {fl : Faults} {e} {s : FSt} (hN : N ≠ []) (hfl : ∀ k n, fl.call k = some n → n = 0)
    (h1 : s.trace.foldl Op.apply F = s.file) (h2 : ∀ op ∈ s.trace, op.Agrees F) (h3 : s.buf = N) (h4 : s.cur = q) :
    ((fFlushBuf fl e s).1 = .ok () ∧ Steady F G (s.trace ++ [.write q N]) (fFlushBuf fl e s).2 ∧ emptied (fFlushBuf fl e s).2) ∨
    ((∀ a, (fFlushBuf fl e s).1 ≠ .ok a) ∧ (fFlushBuf fl e s).2.toWSt = s.toWSt) := by
  have hne : s.buf.isEmpty = false := by rw [h3]; cases N with
    | nil => exact absurd rfl hN
    | cons _ _ => rfl
  unfold fFlushBuf
  rw [hne]
  simp only [Bool.false_eq_true, if_false]
  split
  · refine .inl ⟨rfl, ⟨?_, ⟨[], ?_, fun _ h => by cases h⟩, fun h => absurd rfl h⟩, rfl⟩
    · rw [flushBuf_trace, flushBuf_file, h3, if_neg hN, if_neg hN, List.foldl_append, h1]; rfl
    · rw [flushBuf_trace, h3, if_neg hN, h4, List.append_nil]
  · rename_i n hc
    obtain rfl := hfl _ _ hc
    exact .inr ⟨(fun _ h => by cases h), rfl⟩

theorem Single.drop {F G : Bytes} {q : Nat} {N : Bytes} {fl : Faults} {e} {s : FSt} (hN : N ≠ []) (hfl : ∀ k n, fl.call k = some n → n = 0)
    (h : Single F G q N s) : Single F G q N (fDrop fl e s) := by
  rcases h with h | ⟨h1, h2, h3, h4⟩ | ⟨A, hA, h⟩
  · exact .inl h.drop
  · rcases single_flush (G := G) (e := e) hN hfl h1 h2 h3 h4 with ⟨-, k, -⟩ | ⟨-, k⟩
    · exact .inr (.inr ⟨_, h2, k⟩)
    · refine .inr (.inl ?_)
      unfold fDrop
      rw [k]
      exact ⟨h1, h2, h3, h4⟩
  · exact .inr (.inr ⟨A, hA, h.drop⟩)

theorem fWritePhase_single {F G : Bytes} {fl : Faults} {e : Env} {p : Plan} {moved N atoms} (hd : p.lenDiff = 0) (hm : p.movedDataStart < 2^63)
    (hw : Emits (newAtomsWr p atoms) N) (hmv : At0 G p.movedDataStart moved) (hN : N ≠ []) (hcap : N.length < e.cap)
    (hfl : ∀ k n, fl.call k = some n → n = 0) :
    Hoare fl e (fun s => Steady F F [] s ∧ seated p.newAtomsStart s) (do
      fEmit (newAtomsWr p atoms)
      let m ← (addI (asI64 p.movedDataStart) p.lenDiff).fw
      fSeekStart (asU64 m)
      fWriteAll moved
      fFlush) (fun _ => Single F G p.newAtomsStart N) (Single F G p.newAtomsStart N) := by
  rw [hd]
  refine .bind (J := fun _ s => (∀ op ∈ s.trace, op.Agrees F) ∧ s.trace.foldl Op.apply F = s.file ∧ s.buf = N ∧ s.cur = p.newAtomsStart) ?_ fun _ => ?_
  · rintro s ⟨hs, hb, hc⟩
    obtain ⟨cs, h1, h2⟩ := hw e
    unfold fEmit
    rw [h1]
    dsimp only
    rw [fAll_buffered cs s (by rw [hb, h2]; simpa using hcap)]
    dsimp only
    refine ⟨fun _ _ => ⟨hs.ops_agree, hs.replay, ?_, hc⟩, fun h => absurd rfl (h ())⟩
    rw [hb, h2]; rfl
  · refine .bind (.E fun s h => .inr (.inl ⟨h.2.1, h.1, h.2.2⟩)) fun n => ?_
    by_cases hn : addI (asI64 p.movedDataStart) 0 e = .ok n
    · rw [addI_zero (by omega) hn]
      rintro s ⟨⟨hA, hr, hb, hc⟩, -⟩
      generalize hA' : s.trace = A at hA
      have hX : ∀ s, Steady F G (A ++ [.write p.newAtomsStart N]) s → Single F G p.newAtomsStart N s := fun s h => .inr (.inr ⟨A, hA, h⟩)
      have hflush : Hoare fl e (fun t => t = s) fFlushBuf (fun _ t => Steady F G (A ++ [.write p.newAtomsStart N]) t ∧ emptied t)
          (Single F G p.newAtomsStart N) := by
        rintro t rfl
        rcases single_flush (G := G) (e := e) hN hfl hr (by rw [hA']; exact hA) hb hc with ⟨k1, k2, k3⟩ | ⟨k1, k2⟩
        · rw [hA'] at k2
          exact ⟨fun _ _ => ⟨k2, k3⟩, fun h => absurd k1 (h ())⟩
        · refine ⟨fun a h => absurd h (k1 a), fun _ => .inr (.inl ?_)⟩
          rw [k2]
          exact ⟨hr, by rw [hA']; exact hA, hb, hc⟩
      have hseek := Hoare.bind hflush (K := fun _ t => Steady F G (A ++ [.write p.newAtomsStart N]) t ∧ seated p.movedDataStart t)
        fun _ => (seek_emptied p.movedDataStart).conseq (fun _ h => h) (fun _ _ h => h) hX
      refine Hoare.bind (P := fun t => t = s) (J := fun _ t => Steady F G (A ++ [.write p.newAtomsStart N]) t ∧ seated p.movedDataStart t) ?_ (fun _ => ?_) s rfl
      · exact hseek
      · exact .bind ((fWriteAll_hoare hmv).conseq (fun _ h => ⟨h.1, h.2.next⟩) (fun _ _ h => h) hX) fun _ =>
          fFlushBuf_hoare.conseq (fun _ h => h) (fun _ _ h => hX _ h.1) hX
    · exact fun s hs => absurd hs.2 hn

/-! ### The file -/

theorem headIn_of {F : Bytes} {p : Nat} {b : Box} (h : At F p b.head) (hl : b.body.length + 16 < 2^63) : HeadIn F ⟨p, b.size⟩ := by
  have hlen := size_len b
  rw [Box.ser_length] at hlen
  have hh : b.headLen ≤ 16 := by unfold Box.headLen; split <;> omega
  refine ⟨by show b.size.len < _; omega, ?_⟩
  show if b.ext then _ else _
  rw [Box.head] at h
  by_cases hx : b.ext
  · rw [if_pos hx] at h ⊢
    have h16 : b.size.len = b.body.length + 16 := by rw [hlen]; unfold Box.headLen; rw [if_pos hx]; omega
    show At F p (toBe 4 1) ∧ At F (p + 8) (toBe 8 b.size.len)
    rw [h16, toBe4, toBe8]
    refine ⟨h.left.left, h.right (a := be32 1 ++ b.fc.bytes) ?_⟩
    rfl
  · rw [if_neg hx] at h ⊢
    have h8 : b.size.len = b.body.length + 8 := by rw [hlen]; unfold Box.headLen; rw [if_neg hx]; omega
    show At F p (toBe 4 b.size.len)
    rw [h8, toBe4]
    exact h.left

theorem Heads.in_of {F : Bytes} {d : Int} : ∀ (hs : Heads) (p : Nat), hs.OK d → At F p hs.old → ∀ a ∈ hs.bounds p, HeadIn F a
  | [], _, _, _, a, ha => by cases ha
  | h :: hs, p, hok, hat, a, ha => by
    have hat' : At F p (h.1.head ++ h.2.2 ++ Heads.old hs) := hat
    rcases List.mem_cons.mp ha with rfl | ha
    · exact headIn_of hat'.left.left (hok h (by simp)).2.2.2.1
    · refine Heads.in_of hs _ (fun x hx => hok x (by simp [hx])) ?_ a ha
      have := hat'.right rfl
      rwa [List.length_append, Box.head_length, ← Nat.add_assoc] at this

theorem Heads.new_zero : ∀ {hs : Heads}, hs.OK 0 → hs.new = hs.old
  | [], _ => rfl
  | h :: hs, hok => by
    obtain ⟨h1, h2, h3, -⟩ := hok h (by simp)
    have ih := Heads.new_zero (hs := hs) fun x hx => hok x (by simp [hx])
    have hl : h.2.1.body.length = h.1.body.length := by omega
    have hh : h.2.1.head = h.1.head := by unfold Box.head; rw [h1, h2, hl]
    show h.2.1.head ++ h.2.2 ++ Heads.new hs = h.1.head ++ h.2.2 ++ Heads.old hs
    rw [ih, hh]

/-- What is planned if the file keeps its length: the bytes of the item list `old` are replaced by `N`. -/
theorem inplace_form {e : Env} {f : File} {X : Bytes} {atoms : List AtomData} (hF : Fit e (X ++ f.ser)) (hw : f.WF)
    (hs : ∀ a ∈ atoms, Storable a) (ho : (X ++ f.ser).length < 2^62) (hn : (X ++ (f.put atoms).ser).length < 2^62)
    (ht : f.MediaBehind → f.moov.Tables) (hg : f.growth atoms = 0) :
    ∃ (plan : Plan) (Q old N M : Bytes) (c : Nat),
      preparePhase atoms e (X ++ f.ser) X.length = .ok ((f.mdatPos X.length, moovB (f.moovPos X.length) f.moovBox f.moov, plan,
        (X ++ f.ser).length, M), c) ∧
      X ++ f.ser = Q ++ old ++ M ∧ X ++ (f.put atoms).ser = Q ++ N ++ M ∧ old.length = N.length ∧ plan.lenDiff = 0 ∧
      plan.newAtomsStart = Q.length ∧ plan.movedDataStart = Q.length + N.length ∧ Emits (newAtomsWr plan atoms) N ∧
      (∀ a ∈ plan.updateAtoms, HeadIn (X ++ f.ser) a) ∧
      N.length ≤ hdlrBox.ser.length + (ilstBox atoms).ser.length := by
  have hid : ∀ ks : List MoovKid, (∀ k ∈ ks, k ∈ f.moov) →
      ks.map (MoovKid.mapTrak (if f.MediaBehind then Spec.Trak.shift (f.growth atoms) else id)) = ks := by
    intro ks hks
    split
    · rename_i hmb
      conv => rhs; rw [← List.map_id ks]
      refine List.map_congr_left fun k hk => ?_
      cases k with
      | trak ext t =>
        show MoovKid.trak ext (Spec.Trak.shift (f.growth atoms) t) = .trak ext t
        rw [hg, trak_shift_zero (ht hmb ext t (hks _ hk))]
      | _ => rfl
    · exact mapTrak_id ks
  generalize hgd : (if f.MediaBehind then Spec.Trak.shift (f.growth atoms) else id) = g at hid
  have hput : (f.put atoms).moovBox = ⟨f.moovExt, cc 'm' 'o' 'o' 'v', serL MoovKid.box (f.moov.put g atoms)⟩ := by
    rw [← hgd]; rfl
  generalize hP : X ++ f.ftypBox.ser ++ serL id f.pre = P
  have hPl : f.moovPos X.length = P.length := by rw [← hP]; simp only [List.length_append]; rfl
  have hFser : X ++ f.ser = P ++ f.moovBox.ser ++ serL id f.post := by
    rw [← hP]; simp only [File.ser, List.append_assoc]
  have hGser : X ++ (f.put atoms).ser = P ++ (⟨f.moovExt, cc 'm' 'o' 'o' 'v', serL MoovKid.box (f.moov.put g atoms)⟩ : Box).ser ++ serL id f.post := by
    rw [← hput, ← hP]; simp only [File.ser, List.append_assoc]; rfl
  have hmser : f.moovBox.body = serL MoovKid.box f.moov := rfl
  have hpl' := put_shift_length (atoms := atoms) ht
  have ho' := ho
  have hn' := hn
  rw [hFser] at ho'
  have hpe : (f.put atoms).moov = f.moov.put g atoms := by rw [← hgd]; rfl
  rw [hpe] at hpl'
  rw [hGser] at hn'
  simp only [List.length_append, Box.ser_length, hpl'] at ho' hn'
  obtain ⟨pl⟩ := exists_place (e := e) (q := f.moovPos X.length) (b := f.moovBox) (m := f.moov) hs hmser
    (by rw [hPl, Box.ser_length]; omega) (by omega) hw.2.2.1
  have hil := Heads.length pl.ok
  have hsl : (serL MoovKid.box f.moov).length = (serL MoovKid.box pl.before).length + pl.inner.old.length + pl.old.length + pl.rest.length := by
    rw [pl.ser]; simp only [List.length_append]
  have hnl : (serL MoovKid.box (f.moov.put id atoms)).length = (serL MoovKid.box pl.before).length + pl.inner.old.length + pl.new.length + pl.rest.length := by
    rw [pl.put id, mapTrak_id]; simp only [List.length_append]; rw [hil]
  have hgr : ((serL MoovKid.box (f.moov.put id atoms)).length : Int) - (serL MoovKid.box f.moov).length = 0 := hg
  have heq : pl.old.length = pl.new.length := by omega
  have hok := pl.ok
  rw [show ((pl.new.length : Int) - pl.old.length) = 0 by omega] at hok
  have hst := pl.start
  have hmv := pl.moved
  have hdf := pl.diff
  rw [hmser] at ho'
  have hFQ : X ++ f.ser = (P ++ f.moovBox.head ++ serL MoovKid.box pl.before ++ pl.inner.old) ++ pl.old ++ (pl.rest ++ serL id f.post) := by
    rw [hFser, Box.ser, hmser, pl.ser]; simp only [List.append_assoc]
  have hGQ : X ++ (f.put atoms).ser = (P ++ f.moovBox.head ++ serL MoovKid.box pl.before ++ pl.inner.old) ++ pl.new ++ (pl.rest ++ serL id f.post) := by
    have hhead : (⟨f.moovExt, cc 'm' 'o' 'o' 'v', serL MoovKid.box (f.moov.put g atoms)⟩ : Box).head = f.moovBox.head := by
      unfold Box.head
      show (if f.moovExt then _ else _) = if f.moovExt then _ else _
      have hb : (serL MoovKid.box (f.moov.put g atoms)).length = f.moovBox.body.length := by rw [hmser]; omega
      simp only [hb]; rfl
    rw [hGser, Box.ser, hhead, pl.put g, hid _ pl.sub, Heads.new_zero hok]; simp only [List.append_assoc]
  have hQl : pl.plan.newAtomsStart = (P ++ f.moovBox.head ++ serL MoovKid.box pl.before ++ pl.inner.old).length := by
    simp only [List.length_append, Box.head_length]; omega
  obtain ⟨c, hc⟩ := preparePhase_at (atoms := atoms) hF hw pl.plans (by rw [hFQ, hmv, hQl]; simp only [List.length_append]; omega)
  have hdrop : (X ++ f.ser).drop pl.plan.movedDataStart = pl.rest ++ serL id f.post := by
    rw [hFQ]
    exact List.drop_left' (by rw [hmv, hQl, List.length_append])
  rw [hdrop] at hc
  refine ⟨pl.plan, _, pl.old, pl.new, _, c, hc, hFQ, hGQ, heq, by omega, hQl, by rw [hmv, hQl, heq], pl.emits, ?_, ?_⟩
  · intro a ha
    rw [← List.mem_reverse, pl.bounds] at ha
    rcases List.mem_cons.mp ha with rfl | ha
    · refine headIn_of (At_intro' P (f.moovBox.body ++ serL id f.post) ?_ hPl.symm) (by rw [hmser]; omega)
      rw [hFser, Box.ser]; simp only [List.append_assoc]
    · refine Heads.in_of pl.inner _ pl.ok (At_intro' (P ++ f.moovBox.head ++ serL MoovKid.box pl.before) (pl.old ++ (pl.rest ++ serL id f.post)) ?_ ?_) a ha
      · rw [hFQ]; simp only [List.append_assoc]
      · simp only [List.length_append, Box.head_length]; omega
  · rcases pl.small with h | h
    · rw [h, List.length_nil] at heq; omega
    · exact h

theorem Hoare.total {α fl e P X} {c : FW α} (h : Hoare fl e P c (fun _ => X) X) {s : FSt} (hs : P s) : X (c fl e s).2 := by
  obtain ⟨h1, h2⟩ := h s hs
  rcases hc : (c fl e s).1 with a | k | _ | _
  · exact h1 a hc
  all_goals exact h2 fun a ha => by rw [hc] at ha; cases ha

theorem writeTagF_inplace {e : Env} {f : File} {X : Bytes} {atoms : List AtomData} (fl : Faults) (hF : Fit e (X ++ f.ser)) (hw : f.WF)
    (hs : ∀ a ∈ atoms, Storable a) (ho : (X ++ f.ser).length < 2^62) (hn : (X ++ (f.put atoms).ser).length < 2^62)
    (ht : f.MediaBehind → f.moov.Tables) (hg : f.growth atoms = 0) :
    Halfway (X ++ f.ser) (X ++ (f.put atoms).ser) (writeTagF fl e (X ++ f.ser) X.length atoms).2 ∧
    ((ilstBox atoms).ser.length + hdlrBox.ser.length < e.cap → (∀ k n, fl.call k = some n → n = 0) → ∃ Q old N M,
      X ++ f.ser = Q ++ old ++ M ∧ X ++ (f.put atoms).ser = Q ++ N ++ M ∧ old.length = N.length ∧
      Single (X ++ f.ser) (X ++ (f.put atoms).ser) Q.length N (writeTagF fl e (X ++ f.ser) X.length atoms).2) := by
  obtain ⟨plan, Q, old, N, M, c, hc, h1, h2, h3, h4, h5, h6, h7, h8, h9⟩ := inplace_form hF hw hs ho hn ht hg
  generalize hFe : X ++ f.ser = F at *
  generalize hGe : X ++ (f.put atoms).ser = G at *
  have hN : At0 G plan.newAtomsStart N := fun _ => At_intro' Q M h2 h5.symm
  have hM : At0 G plan.movedDataStart M := fun _ => At_intro' (Q ++ N) [] (by rw [h2, List.append_nil]) (by rw [h6, List.length_append])
  have hm : plan.movedDataStart < 2^63 := by
    rw [h6]
    rw [h2] at hn
    simp only [List.length_append] at hn
    omega
  have h0 : ∀ k, Steady F F [] { file := F, cur := e.rcur 0, tick := k } := fun k => ⟨rfl, ⟨[], rfl, fun _ h => by cases h⟩, fun h => absurd rfl h⟩
  unfold writeTagF
  cases hsr : fl.search
  · simp only [Bool.false_eq_true, if_false]
    rw [hc]
    dsimp only
    refine ⟨Halfway.drop ?_, fun hcap hfl => ⟨Q, old, N, M, h1, h2, h3, ?_⟩⟩
    · exact (fWritePhase_front h4 (by omega) h8 (fun s h => .inl h) (fWritePhase_near h4 hm h7 hN hM)).total ⟨h0 0, rfl⟩
    · by_cases hne : N = []
      · subst hne
        have hFG : F = G := by
          rw [h1, h2, List.length_eq_zero_iff.mp h3]
        have hh : Halfway F G (fDrop fl e (fWritePhase (f.mdatPos X.length) (moovB (f.moovPos X.length) f.moovBox f.moov) plan F.length M atoms fl e
            { file := F, cur := e.rcur 0 }).2) := Halfway.drop
          ((fWritePhase_front h4 (by omega) h8 (fun s h => .inl h) (fWritePhase_near h4 hm h7 hN hM)).total ⟨h0 0, rfl⟩)
        rcases hh with hh | ⟨A, hA, hh⟩
        · exact .inl hh
        · subst hFG
          refine .inl ⟨hh.replay, ?_, hh.pend⟩
          obtain ⟨B, hB, hB'⟩ := hh.ops
          refine ⟨A ++ B, by rw [hB]; rfl, fun op hop => ?_⟩
          rcases List.mem_append.mp hop with h | h
          · exact hA op h
          · exact hB' op h
      · refine Single.drop hne hfl ?_
        rw [← h5]
        exact (fWritePhase_front h4 (by omega) h8 (fun s h => .inl h) (fWritePhase_single h4 hm h7 hM hne (by omega) hfl)).total ⟨h0 0, rfl⟩
  · simp only [if_true]
    exact ⟨.inl (h0 0), fun _ _ => ⟨Q, old, N, M, h1, h2, h3, .inl (h0 0)⟩⟩

end Mp4
