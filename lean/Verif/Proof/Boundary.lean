import Verif.Proof.InPlace
import Verif.Proof.Late
import Verif.Proof.Written
/-
What of the bytes behind the movie atom is where, whenever writing is stopped: the bytes are moved one after the other.
-/
namespace Mp4
open Spec

/-! ### Where the tables end -/

/-- The tables of a track end in front of `z`. -/
def TablesEnd (z : Nat) (s : StblBounds) : Prop :=
  (∀ a, s.stco = some a → a.pos + a.size.len ≤ z) ∧ (∀ a, s.co64 = some a → a.pos + a.size.len ≤ z)

theorem TablesEnd.mono {y z s} (h : TablesEnd y s) (hz : y ≤ z) : TablesEnd z s :=
  ⟨fun a ha => Nat.le_trans (h.1 a ha) hz, fun a ha => Nat.le_trans (h.2 a ha) hz⟩

theorem lastAt_leaf_end {fc : Fourcc} {bd : AtomBounds} {ks : List Box} {p : Nat} (h : lastAt id (leafAt fc) p ks = some bd) :
    bd.pos + bd.size.len ≤ p + (serL id ks).length := by
  obtain ⟨q, k, -, h1, -, h3⟩ := lastAt_mem _ _ h
  rw [leafAt] at h1
  split at h1
  · injection h1 with h1
    subst h1
    have := size_len k
    simp only [id] at h3 ⊢
    omega
  · cases h1

theorem stblB_end {q : Nat} {b : Box} {s : Stbl} (hb : b.body = s.ser) : TablesEnd (q + b.ser.length) (stblB q b s) := by
  have hl : b.ser.length = b.headLen + (serL id s).length := by rw [b.ser_length, hb]; rfl
  constructor <;> intro a ha
  · have := lastAt_leaf_end ha; omega
  · have := lastAt_leaf_end ha; omega

theorem kids_end {α β} {fc : Fourcc} {ser : α → Bytes} {g : Nat → Box → α → β} {R : Nat → β → Prop} {y : β} {q : Nat} {b : Box} {ks : List (Kid α)}
    (hmono : ∀ m n y, R m y → m ≤ n → R n y) (hg : ∀ (q : Nat) (b : Box) a, b.body = ser a → R (q + b.ser.length) (g q b a))
    (hb : b.body = serL (Kid.box fc ser) ks)
    (hy : lastAt (Kid.box fc ser) (kidAt (Kid.box fc ser) g) (q + b.headLen) ks = some y) : R (q + b.ser.length) y := by
  obtain ⟨q', k, _, h1, h2, h3⟩ := lastAt_mem _ _ hy
  have hl : b.ser.length = b.headLen + (serL (Kid.box fc ser) ks).length := by rw [b.ser_length, hb]
  cases k with
  | node ext a =>
    cases h1
    exact hmono _ _ _ (hg q' _ a rfl) (by omega)
  | raw b => cases h1

theorem minfB_end {q : Nat} {b : Box} {m : Minf} (hb : b.body = m.ser) : ∀ s, minfB q b m = some s → TablesEnd (q + b.ser.length) s := fun _ hs =>
  kids_end (R := TablesEnd) (fun _ _ _ => TablesEnd.mono) (fun _ _ _ => stblB_end) hb hs

theorem mdiaB_end {q : Nat} {b : Box} {m : Mdia} (hb : b.body = m.ser) :
    ∀ t, mdiaB q b m = some t → ∀ s, t = some s → TablesEnd (q + b.ser.length) s := fun _ hs =>
  kids_end (R := fun q t => ∀ s, t = some s → TablesEnd q s) (fun _ _ _ h hm s hs => (h s hs).mono hm) (fun _ _ _ => minfB_end) hb hs

theorem trakB_end {q : Nat} {b : Box} {m : Spec.Trak} (hb : b.body = m.ser) :
    ∀ u, trakB q b m = some u → ∀ t, u = some t → ∀ s, t = some s → TablesEnd (q + b.ser.length) s := fun _ hs =>
  kids_end (R := fun q u => ∀ t, u = some t → ∀ s, t = some s → TablesEnd q s) (fun _ _ _ h hm t ht s hs => (h t ht s hs).mono hm)
    (fun _ _ _ => mdiaB_end) hb hs

theorem moovB_end {q : Nat} {b : Box} {m : Spec.Moov} (hb : b.body = m.ser) : ∀ s ∈ stblAtoms (moovB q b m), TablesEnd (q + b.ser.length) s := by
  intro s hs
  obtain ⟨t, ht, hts⟩ := List.mem_filterMap.mp hs
  obtain ⟨q', k, _, h1, h2, h3⟩ := allAt_mem _ _ ht
  have hl : b.ser.length = b.headLen + (serL MoovKid.box m).length := by rw [b.ser_length, hb]; rfl
  cases k with
  | trak ext x =>
    cases h1
    rcases hu : trakB q' (MoovKid.box (.trak ext x)) x with _ | u
    · rw [hu] at hts; cases hts
    · rw [hu] at hts
      rcases u with _ | u
      · cases hts
      · exact (trakB_end (q := q') rfl _ hu u rfl s hts).mono (by omega)
  | _ => cases h1

/-! ### Writing within some positions, with failing calls -/

/-- The system calls behind `tr` write at positions in `T`, and so would writing what is in the buffer. -/
structure Roam (F : Bytes) (T : Nat → Prop) (tr : List Op) (s : FSt) : Prop where
  replay : s.trace.foldl Op.apply F = s.file
  ops : ∃ B, s.trace = tr ++ B ∧ ∀ op ∈ B, Inner T op
  pend : ∀ j < s.buf.length, T (s.cur + j)

theorem Roam.congr {F T tr} {s s' : FSt} (h : Roam F T tr s) (h1 : s'.trace = s.trace) (h2 : s'.file = s.file)
    (h3 : ∀ j < s'.buf.length, T (s'.cur + j)) : Roam F T tr s' := ⟨by rw [h1, h2]; exact h.replay, by rw [h1]; exact h.ops, h3⟩

section
variable {F : Bytes} {T : Nat → Prop} {tr : List Op} {fl : Faults} {e : Env}

theorem Roam.sysWrite {s : FSt} (h : Roam F T tr s) {b : Bytes} {k : Nat} (hb : ∀ j < b.length, T (s.cur + j)) (rest : Bytes)
    (hr : ∀ j < rest.length, T (s.cur + b.length + j)) : Roam F T tr { toWSt := { s.toWSt.sysWrite b with buf := rest }, tick := k } := by
  unfold WSt.sysWrite
  split
  · rename_i he
    rw [List.isEmpty_iff.mp he, List.length_nil, Nat.add_zero] at hr
    exact ⟨h.replay, h.ops, hr⟩
  · rename_i he
    obtain ⟨B, hB, hB'⟩ := h.ops
    refine ⟨?_, ⟨B ++ [.write s.cur b], ?_, ?_⟩, hr⟩
    · dsimp only
      rw [List.foldl_append, h.replay]; rfl
    · dsimp only
      rw [hB, List.append_assoc]
    · intro op hop
      rcases List.mem_append.mp hop with hop | hop
      · exact hB' op hop
      · rw [List.mem_singleton] at hop
        subst hop
        exact ⟨_, _, rfl, fun h => he (by rw [h]; rfl), hb⟩

theorem fFlushBuf_roam {p : Nat} : Hoare fl e (fun s => Roam F T tr s ∧ writesAt p s) fFlushBuf (fun _ s => Roam F T tr s ∧ seated p s) (Roam F T tr) := by
  rintro s ⟨hs, hp⟩
  unfold fFlushBuf
  split
  · rename_i hb
    have hb := List.isEmpty_iff.mp hb
    refine ⟨fun _ _ => ⟨hs, hb, ?_⟩, fun h => absurd rfl (h ())⟩
    unfold writesAt at hp
    rw [hb] at hp
    exact hp
  · split
    · refine ⟨fun _ _ => ⟨hs.sysWrite hs.pend [] (fun j h => absurd h (Nat.not_lt_zero j)), rfl, ?_⟩, fun h => absurd rfl (h ())⟩
      show (s.toWSt.sysWrite s.buf).cur = p
      rw [sysWrite_cur]; exact hp
    · rename_i n _
      refine ⟨(fun _ h => by cases h), fun _ => hs.sysWrite (fun j hj => hs.pend j ?_) _ fun j hj => ?_⟩
      · rw [List.length_take] at hj; omega
      · rw [List.length_drop] at hj
        have := hs.pend (n + j) (by omega)
        rwa [List.length_take, Nat.min_eq_left (by omega), Nat.add_assoc]

theorem Roam.drop {s : FSt} (h : Roam F T tr s) : Roam F T tr (fDrop fl e s) := by
  unfold fDrop
  obtain ⟨h1, h2⟩ := fFlushBuf_roam (p := s.cur + s.buf.length) (fl := fl) (e := e) s ⟨h, rfl⟩
  rcases hc : (fFlushBuf fl e s).1 with a | k | _ | _
  · exact (h1 a hc).1
  all_goals exact h2 fun a ha => by rw [hc] at ha; cases ha

theorem seek_roam {p : Nat} (g : Nat → Nat) : Hoare fl e (fun s => Roam F T tr s ∧ seated p s)
    (fun _ e s => if g s.cur ≤ e.maxPos then (.ok (), { s with cur := g s.cur }) else (.err .io, s) : FW Unit)
    (fun _ s => Roam F T tr s ∧ seated (g p) s) (Roam F T tr) := by
  intro s hs
  show (∀ a, (if g s.cur ≤ e.maxPos then (.ok (), { s with cur := g s.cur }) else (.err .io, s) : Out Unit × FSt).1 = .ok a →
      Roam F T tr (if g s.cur ≤ e.maxPos then (.ok (), { s with cur := g s.cur }) else (.err .io, s) : Out Unit × FSt).2 ∧
      seated (g p) (if g s.cur ≤ e.maxPos then (.ok (), { s with cur := g s.cur }) else (.err .io, s) : Out Unit × FSt).2) ∧
    ((∀ a, (if g s.cur ≤ e.maxPos then (.ok (), { s with cur := g s.cur }) else (.err .io, s) : Out Unit × FSt).1 ≠ .ok a) →
      Roam F T tr (if g s.cur ≤ e.maxPos then (.ok (), { s with cur := g s.cur }) else (.err .io, s) : Out Unit × FSt).2)
  split
  · exact ⟨fun _ _ => ⟨hs.1.congr rfl rfl (fun j h => by dsimp only at h; rw [hs.2.1] at h; exact absurd h (Nat.not_lt_zero j)), hs.2.1, by rw [← hs.2.2]⟩,
      fun h => absurd rfl (h ())⟩
  · exact ⟨(fun _ h => by cases h), fun _ => hs.1⟩

theorem fSeekStart_roam {n : Nat} : Hoare fl e (Roam F T tr) (fSeekStart n) (fun _ s => Roam F T tr s ∧ seated n s) (Roam F T tr) := by
  intro s hs
  have := Hoare.bind (fFlushBuf_roam (F := F) (T := T) (tr := tr) (fl := fl) (e := e) (p := s.cur + s.buf.length)) (fun _ => seek_roam fun _ => n)
  exact this s ⟨hs, rfl⟩

theorem fSeekCur_roam {n p : Nat} : Hoare fl e (fun s => Roam F T tr s ∧ writesAt p s) (fSeekCur n) (fun _ s => Roam F T tr s ∧ seated (p + n) s)
    (Roam F T tr) := Hoare.bind fFlushBuf_roam fun _ => seek_roam fun c => c + n

theorem Roam.push {p : Nat} {b : Bytes} {s : FSt} (hs : Roam F T tr s) (hp : writesAt p s) (hb : ∀ j < b.length, T (p + j)) :
    Roam F T tr { s with buf := s.buf ++ b } ∧ writesAt (p + b.length) { s with buf := s.buf ++ b } := by
  unfold writesAt at hp
  refine ⟨hs.congr rfl rfl fun j hj => ?_, ?_⟩
  · dsimp only at hj ⊢
    rw [List.length_append] at hj
    by_cases hlt : j < s.buf.length
    · exact hs.pend j hlt
    · have := hb (j - s.buf.length) (by omega)
      rwa [show p + (j - s.buf.length) = s.cur + j by omega] at this
  · unfold writesAt
    dsimp only
    rw [List.length_append]; omega

theorem fWriteDirect_roam {p : Nat} {b : Bytes} (hb : ∀ j < b.length, T (p + j)) :
    Hoare fl e (fun s => Roam F T tr s ∧ writesAt p s ∧ (e.cap ≤ b.length → b = [] ∨ s.buf = [])) (fWriteDirect b)
      (fun _ s => Roam F T tr s ∧ writesAt (p + b.length) s) (Roam F T tr) := by
  rintro s ⟨hs, hp, hc⟩
  unfold fWriteDirect
  split
  · rename_i hge
    unfold fSysWrite
    split
    · rename_i he
      rw [List.isEmpty_iff.mp he]
      exact ⟨fun _ _ => ⟨hs, hp⟩, fun h => absurd rfl (h ())⟩
    · rename_i he
      have hbuf : s.buf = [] := (hc hge).resolve_left fun h => he (by rw [h]; rfl)
      have hcur : s.cur = p := by unfold writesAt at hp; rw [hbuf] at hp; exact hp
      have key : ∀ b' k, (∀ j < b'.length, T (p + j)) → Roam F T tr { toWSt := s.toWSt.sysWrite b', tick := k } := by
        intro b' k hb'
        have := hs.sysWrite (k := k) (b := b') (by rw [hcur]; exact hb') [] (fun j h => absurd h (Nat.not_lt_zero j))
        refine this.congr rfl rfl ?_
        dsimp only
        rw [sysWrite_buf, hbuf]
        exact fun j h => absurd h (Nat.not_lt_zero j)
      split
      · refine ⟨fun _ _ => ⟨key b _ hb, ?_⟩, fun h => absurd rfl (h ())⟩
        show (s.toWSt.sysWrite b).cur + (s.toWSt.sysWrite b).buf.length = _
        rw [sysWrite_cur, sysWrite_buf, hbuf, hcur]; rfl
      · rename_i n _
        refine ⟨(fun _ h => by cases h), fun _ => key _ _ fun j hj => hb j ?_⟩
        rw [List.length_take] at hj
        omega
  · exact ⟨fun _ _ => hs.push hp hb, fun h => absurd rfl (h ())⟩

theorem fWriteAll_roam {p : Nat} {b : Bytes} (hb : ∀ j < b.length, T (p + j)) :
    Hoare fl e (fun s => Roam F T tr s ∧ writesAt p s) (fWriteAll b) (fun _ s => Roam F T tr s ∧ writesAt (p + b.length) s) (Roam F T tr) := by
  rintro s ⟨hs, hp⟩
  unfold fWriteAll
  split
  · exact ⟨fun _ _ => hs.push hp hb, fun h => absurd rfl (h ())⟩
  · split
    · exact Hoare.bind fFlushBuf_roam (fun _ => (fWriteDirect_roam hb).conseq (fun s h => ⟨h.1, h.2.next, fun _ => .inr h.2.1⟩)
        (fun _ _ h => h) (fun _ h => h)) s ⟨hs, hp⟩
    · refine fWriteDirect_roam hb s ⟨hs, hp, fun hc => ?_⟩
      rcases Nat.eq_zero_or_pos b.length with h0 | h0
      · exact .inl (List.length_eq_zero_iff.mp h0)
      · refine .inr (List.length_eq_zero_iff.mp ?_)
        omega

theorem fAll_roam {α : Type} {f : α → FW Unit} {g : α → Nat} (hf : ∀ a p, (∀ j < g a, T (p + j)) →
    Hoare fl e (fun s => Roam F T tr s ∧ writesAt p s) (f a) (fun _ s => Roam F T tr s ∧ writesAt (p + g a) s) (Roam F T tr)) :
    ∀ (l : List α) (p : Nat), (∀ j < (l.map g).sum, T (p + j)) →
    Hoare fl e (fun s => Roam F T tr s ∧ writesAt p s) (fAll f l) (fun _ s => Roam F T tr s ∧ writesAt (p + (l.map g).sum) s) (Roam F T tr)
  | [], p, _ => .pure ()
  | x :: xs, p, h => by
    rw [List.map_cons, List.sum_cons] at h ⊢
    refine .bind (hf x p fun j hj => h j (by omega)) fun _ => (fAll_roam hf xs _ fun j hj => ?_).conseq (fun _ h => h) (fun _ s h => ⟨h.1, ?_⟩) (fun _ h => h)
    · rw [Nat.add_assoc]; exact h _ (by omega)
    · have h2 := h.2
      unfold writesAt at h2 ⊢
      omega

theorem fEmit_roam {p : Nat} {w : Wr Unit} {b : Bytes} (hw : Emits w b) (hb : ∀ j < b.length, T (p + j)) :
    Hoare fl e (fun s => Roam F T tr s ∧ writesAt p s) (fEmit w) (fun _ s => Roam F T tr s ∧ writesAt (p + b.length) s) (Roam F T tr) := by
  intro s hs
  obtain ⟨cs, h1, h2⟩ := hw e
  have hsum : (cs.map List.length).sum = b.length := by rw [← h2, List.length_flatten]
  have key := fAll_roam (g := List.length) (F := F) (T := T) (tr := tr) (fl := fl) (e := e) (fun b p h => fWriteAll_roam (p := p) (b := b) h) cs p
    (by rw [hsum]; exact hb) s hs
  rw [hsum] at key
  unfold fEmit
  rw [h1]
  dsimp only
  rcases hc : fAll fWriteAll cs fl e s with ⟨r, s'⟩
  rw [hc] at key
  cases r with
  | ok a => exact ⟨fun _ _ => key.1 a rfl, fun h => absurd rfl (h ())⟩
  | err k => exact ⟨(fun a h => by cases h), fun _ => key.2 (fun _ h => by cases h)⟩
  | panic => exact ⟨(fun a h => by cases h), fun _ => key.2 (fun _ h => by cases h)⟩
  | fuel => exact ⟨(fun a h => by cases h), fun _ => key.2 (fun _ h => by cases h)⟩

theorem fRead_roam {α : Type} {pos : Nat} {p : P α} : Hoare fl e (fun s => Roam F T tr s ∧ emptied s) (fRead pos p)
    (fun a s => (Roam F T tr s ∧ emptied s) ∧ ∃ H q, p e H pos = .ok (a, q)) (Roam F T tr) := by
  rintro s ⟨hs, hb⟩
  have hs' : ∀ c k, Roam F T tr { s with cur := c, tick := k } := fun c k => hs.congr rfl rfl (fun j h => by
    dsimp only at h; rw [hb] at h; exact absurd h (Nat.not_lt_zero j))
  unfold fRead
  dsimp only
  split
  · split
    · rename_i hq
      refine ⟨fun a ha => ⟨⟨hs' _ _, hb⟩, ?_⟩, fun h => absurd rfl (h _)⟩
      cases ha
      obtain ⟨u, p1, hq1, hq2⟩ := P.bind_inv hq
      rw [seekStart] at hq1
      split at hq1
      · cases hq1
        exact ⟨_, _, hq2⟩
      · cases hq1
    all_goals exact ⟨(fun _ h => by cases h), fun _ => hs' _ _⟩
  · exact ⟨(fun _ h => by cases h), fun _ => hs' _ _⟩

theorem fPatchTable_roam {w : Nat} {d : Int} (hw : w = 4 ∨ w = 8) {a : AtomBounds} (hs : a.size.len < 2^64) (hp : a.pos + 16 < 2^64)
    (hT : ∀ i, a.pos ≤ i → i < a.pos + a.size.len → T i) :
    Hoare fl e (fun s => Roam F T tr s ∧ emptied s) (fPatchTable w d a) (fun _ s => Roam F T tr s ∧ emptied s) (Roam F T tr) := by
  refine .bind (.E fun _ h => h.1) fun pos => ?_
  by_cases hpos : a.contentPos e = .ok pos
  · have hpp : pos = a.pos + a.size.headLen := by
      have h16 : a.size.headLen ≤ 16 := by unfold Size.headLen; split <;> omega
      have := addU_inv hpos
      rw [Nat.mod_eq_of_lt (by omega)] at this
      exact this
    refine .bind (fRead_roam.conseq (fun s h => h.1) (fun _ _ h => h) (fun _ h => h)) fun r => ?_
    obtain ⟨tp, os⟩ := r
    dsimp only
    by_cases hr : ∃ H q, parseTable w a.size e H pos = .ok ((tp, os), q)
    · obtain ⟨H, q, hq⟩ := hr
      obtain ⟨h1, -, h3⟩ := parseTable_inv hw hs hq
      have hsum : (os.map fun _ => w).sum = w * os.length := by
        rw [List.map_const', List.sum_replicate_nat, Nat.mul_comm]
      refine .bind (fSeekStart_roam.conseq (fun s h => h.1.1) (fun _ _ h => h) (fun _ h => h)) fun _ => ?_
      refine .bind (J := fun _ s => Roam F T tr s ∧ writesAt (tp + (os.map fun _ => w).sum) s) ?_ fun _ =>
        fFlushBuf_roam.conseq (fun _ h => h) (fun _ s h => ⟨h.1, h.2.1⟩) (fun _ h => h)
      refine (fAll_roam (fun co p hj => ?_) os tp fun j hj => hT _ (by omega) (by rw [hsum] at hj; omega)).conseq (fun _ h => ⟨h.1, h.2.next⟩) (fun _ _ h => h) (fun _ h => h)
      refine .bind (.E fun _ h => h.1) fun n => ?_
      have := (fWriteAll_roam (F := F) (T := T) (tr := tr) (fl := fl) (e := e) (p := p) (b := toBe w (asU64 n)) (by rw [toBe_len]; exact hj))
      rw [toBe_len] at this
      exact this.conseq (fun _ h => h.1) (fun _ _ h => h) (fun _ h => h)
    · exact fun s hs => absurd hs.2 hr
  · exact fun s hs => absurd hs.2 hpos

theorem fPatchHead_roam {d : Int} {a : AtomBounds} (hT : ∀ i, a.pos ≤ i → i < a.pos + a.size.headLen → T i) :
    Hoare fl e (Roam F T tr) (fPatchHead d a) (fun _ => Roam F T tr) (Roam F T tr) := by
  refine .bind (.E fun _ h => h) fun n => .bind (fSeekStart_roam.conseq (fun _ h => h.1) (fun _ _ h => h) (fun _ h => h)) fun _ => ?_
  have hh : a.size.headLen = if a.size.ext then 16 else 8 := rfl
  by_cases hx : a.size.ext
  · rw [if_pos hx] at hh ⊢
    refine .bind ((fWriteAll_roam fun j hj => ?_).conseq (fun _ h => ⟨h.1, h.2.next⟩) (fun _ _ h => h) (fun _ h => h)) fun _ =>
      .bind fSeekCur_roam fun _ => (fWriteAll_roam (p := a.pos + (toBe 4 1).length + 4) fun j hj => ?_).conseq (fun _ h => ⟨h.1, h.2.next⟩) (fun _ _ h => h.1) (fun _ h => h)
    · rw [toBe_len] at hj; exact hT _ (by omega) (by omega)
    · rw [toBe_len] at hj ⊢; exact hT _ (by omega) (by omega)
  · rw [if_neg hx] at hh ⊢
    exact (fWriteAll_roam fun j hj => hT _ (by omega) (by rw [toBe_len] at hj; omega)).conseq (fun _ h => ⟨h.1, h.2.next⟩) (fun _ _ h => h.1) (fun _ h => h)

end

/-! ### Writing on from some position -/

/-- Writes that continue each other from `p` to `q`, all of them what is in `T`. -/
def Contig (T : Bytes) : Nat → List Op → Nat → Prop
  | p, [], q => p = q
  | p, .write off b :: ops, q => off = p ∧ b ≠ [] ∧ At T p b ∧ Contig T (p + b.length) ops q
  | _, .setLen _ :: _, _ => False

theorem Contig.snoc {T : Bytes} {b : Bytes} (hne : b ≠ []) : ∀ {ops : List Op} {p q : Nat}, Contig T p ops q → At T q b →
    Contig T p (ops ++ [.write q b]) (q + b.length)
  | [], p, q, h, hb => by
    have h : p = q := h
    subst h
    exact ⟨rfl, hne, hb, rfl⟩
  | .write off b' :: ops, p, q, h, hb => ⟨h.1, h.2.1, h.2.2.1, Contig.snoc hne h.2.2.2 hb⟩
  | .setLen _ :: _, _, _, h, _ => h.elim

theorem Contig.split {T : Bytes} : ∀ {A B : List Op} {p q : Nat}, Contig T p (A ++ B) q → ∃ r, Contig T p A r ∧ Contig T r B q
  | [], _, p, _, h => ⟨p, rfl, h⟩
  | .write off b :: A, B, p, q, h => by
    obtain ⟨r, h1, h2⟩ := Contig.split (A := A) h.2.2.2
    exact ⟨r, ⟨h.1, h.2.1, h.2.2.1, h1⟩, h2⟩
  | .setLen _ :: _, _, _, _, h => h.elim

theorem Contig.le {T : Bytes} : ∀ {A : List Op} {p q : Nat}, Contig T p A q → p ≤ q ∧ (p = q ∨ q ≤ T.length)
  | [], p, q, h => by have h : p = q := h; exact ⟨by omega, .inl h⟩
  | .write off b :: A, p, q, h => by
    have hle := h.2.2.1.le
    have := Contig.le (A := A) h.2.2.2
    exact ⟨by omega, by omega⟩
  | .setLen _ :: _, _, _, h => h.elim

/-- The system calls behind `tr` write what is in `T`, one after the other from `t`, and so would writing what is in the buffer. -/
structure Along (F T : Bytes) (tr : List Op) (t : Nat) (s : FSt) : Prop where
  replay : s.trace.foldl Op.apply F = s.file
  ops : ∃ C, s.trace = tr ++ C ∧ Contig T t C s.cur
  pend : At0 T s.cur s.buf

section
variable {F T : Bytes} {tr : List Op} {t : Nat} {fl : Faults} {e : Env}

theorem Along.sysWrite {s : FSt} (h : Along F T tr t s) {b : Bytes} {k : Nat} (hb : At0 T s.cur b) (rest : Bytes)
    (hr : At0 T (s.cur + b.length) rest) : Along F T tr t { toWSt := { s.toWSt.sysWrite b with buf := rest }, tick := k } := by
  unfold WSt.sysWrite
  split
  · rename_i he
    rw [List.isEmpty_iff.mp he, List.length_nil, Nat.add_zero] at hr
    exact ⟨h.replay, h.ops, hr⟩
  · rename_i he
    obtain ⟨C, hC, hC'⟩ := h.ops
    have hne : b ≠ [] := fun h => he (by rw [h]; rfl)
    refine ⟨?_, ⟨C ++ [.write s.cur b], ?_, hC'.snoc hne (hb hne)⟩, hr⟩
    · dsimp only
      rw [List.foldl_append, h.replay]; rfl
    · dsimp only
      rw [hC, List.append_assoc]

theorem fFlushBuf_along {p : Nat} : Hoare fl e (fun s => Along F T tr t s ∧ writesAt p s) fFlushBuf (fun _ s => Along F T tr t s ∧ seated p s)
    (Along F T tr t) := by
  rintro s ⟨hs, hp⟩
  unfold fFlushBuf
  split
  · rename_i hb
    have hb := List.isEmpty_iff.mp hb
    refine ⟨fun _ _ => ⟨hs, hb, ?_⟩, fun h => absurd rfl (h ())⟩
    unfold writesAt at hp
    rw [hb] at hp
    exact hp
  · split
    · refine ⟨fun _ _ => ⟨hs.sysWrite hs.pend [] (fun h => absurd rfl h), rfl, ?_⟩, fun h => absurd rfl (h ())⟩
      show (s.toWSt.sysWrite s.buf).cur = p
      rw [sysWrite_cur]; exact hp
    · rename_i n _
      refine ⟨(fun _ h => by cases h), fun _ => ?_⟩
      have h := hs.pend
      rw [← List.take_append_drop n s.buf, At0_append] at h
      exact hs.sysWrite h.1 _ h.2

theorem fWriteAll_along {b : Bytes} (hb : At0 T t b) :
    Hoare fl e (fun s => Along F T tr t s ∧ seated t s) (fWriteAll b) (fun _ s => Along F T tr t s ∧ writesAt (t + b.length) s) (Along F T tr t) := by
  rintro s ⟨hs, hp, hc⟩
  have push : Along F T tr t { s with buf := s.buf ++ b } ∧ writesAt (t + b.length) { s with buf := s.buf ++ b } := ⟨⟨hs.replay, hs.ops, by
    show At0 T s.cur (s.buf ++ b)
    rw [hp, hc]; exact hb⟩, by
    show s.cur + (s.buf ++ b).length = _
    rw [hp, hc]; rfl⟩
  have direct : (∀ a, (fWriteDirect b fl e s).1 = .ok a → Along F T tr t (fWriteDirect b fl e s).2 ∧ writesAt (t + b.length) (fWriteDirect b fl e s).2) ∧
      ((∀ a, (fWriteDirect b fl e s).1 ≠ .ok a) → Along F T tr t (fWriteDirect b fl e s).2) := by
    unfold fWriteDirect
    split
    · unfold fSysWrite
      have key : ∀ b' k, At0 T t b' → Along F T tr t { toWSt := s.toWSt.sysWrite b', tick := k } := by
        intro b' k hb'
        have := hs.sysWrite (k := k) (b := b') (by rw [hc]; exact hb') [] (fun h => absurd rfl h)
        refine ⟨this.replay, this.ops, ?_⟩
        dsimp only
        rw [sysWrite_buf, hp]
        exact fun h => absurd rfl h
      split
      · rename_i he
        refine ⟨fun _ _ => ⟨hs, ?_⟩, fun h => absurd rfl (h ())⟩
        rw [List.isEmpty_iff.mp he]
        exact seated.next ⟨hp, hc⟩
      · split
        · refine ⟨fun _ _ => ⟨key b _ hb, ?_⟩, fun h => absurd rfl (h ())⟩
          show (s.toWSt.sysWrite b).cur + (s.toWSt.sysWrite b).buf.length = _
          rw [sysWrite_cur, sysWrite_buf, hp, hc]; rfl
        · rename_i n _
          refine ⟨(fun _ h => by cases h), fun _ => key _ _ ?_⟩
          rw [← List.take_append_drop n b, At0_append] at hb
          exact hb.1
    · exact ⟨fun _ _ => push, fun h => absurd rfl (h ())⟩
  unfold fWriteAll
  split
  · exact ⟨fun _ _ => push, fun h => absurd rfl (h ())⟩
  · split
    · have hf : fFlushBuf fl e s = (.ok (), s) := by unfold fFlushBuf; rw [hp]; rfl
      rw [FW.bind, hf]
      exact direct
    · exact direct

theorem Along.drop {s : FSt} (h : Along F T tr t s) : Along F T tr t (fDrop fl e s) := by
  unfold fDrop
  obtain ⟨h1, h2⟩ := fFlushBuf_along (p := s.cur + s.buf.length) (fl := fl) (e := e) s ⟨h, rfl⟩
  rcases hc : (fFlushBuf fl e s).1 with a | k | _ | _
  · exact (h1 a hc).1
  all_goals exact h2 fun a ha => by rw [hc] at ha; cases ha

end

/-! ### The whole -/

/-- How far writing may have come: the tables and heads are being written, within `T1`; or the file has got its new length and
the new atoms are being written, within `T2`; or what is behind them is being written from `t`. -/
def Stage (F G : Bytes) (T1 T2 : Nat → Prop) (n t : Nat) (s : FSt) : Prop :=
  Roam F T1 [] s ∨
  (∃ A, (∀ op ∈ A, Inner T1 op) ∧ Roam F T2 (A ++ [.setLen n]) s) ∨
  (∃ A B, (∀ op ∈ A, Inner T1 op) ∧ (∀ op ∈ B, Inner T2 op) ∧ Along F G (A ++ .setLen n :: B) t s)

theorem Stage.drop {F G : Bytes} {T1 T2 : Nat → Prop} {n t : Nat} {fl e} {s : FSt} (h : Stage F G T1 T2 n t s) : Stage F G T1 T2 n t (fDrop fl e s) := by
  rcases h with h | ⟨A, hA, h⟩ | ⟨A, B, hA, hB, h⟩
  · exact .inl h.drop
  · exact .inr (.inl ⟨A, hA, h.drop⟩)
  · exact .inr (.inr ⟨A, B, hA, hB, h.drop⟩)

/-- What a success leads to: everything has been written up to `q`. -/
def WroteAll (F G : Bytes) (T1 T2 : Nat → Prop) (n t q : Nat) (s : FSt) : Prop :=
  ∃ A B, (∀ op ∈ A, Inner T1 op) ∧ (∀ op ∈ B, Inner T2 op) ∧ Along F G (A ++ .setLen n :: B) t s ∧ seated q s

/-- Moving what is behind the new atoms. -/
theorem fMove_stage {F G : Bytes} {T1 T2 : Nat → Prop} {n t : Nat} {fl e} {A : List Op} {moved : Bytes} (hA : ∀ op ∈ A, Inner T1 op) (hm : At0 G t moved) :
    Hoare fl e (Roam F T2 (A ++ [.setLen n])) (do fSeekStart t; fWriteAll moved; fFlush) (fun _ => WroteAll F G T1 T2 n t (t + moved.length)) (Stage F G T1 T2 n t) := by
  refine .bind (fSeekStart_roam.conseq (fun _ h => h) (fun _ _ h => h) fun s h => .inr (.inl ⟨A, hA, h⟩)) fun _ => ?_
  rintro s ⟨hs, hb, hc⟩
  obtain ⟨B, hB, hB'⟩ := hs.ops
  rw [List.append_assoc] at hB
  have h0 : Along F G (A ++ .setLen n :: B) t s := ⟨hs.replay, ⟨[], by rw [hB, List.append_nil]; rfl, hc.symm⟩, by rw [hb]; exact fun h => absurd rfl h⟩
  have key := Hoare.bind (fWriteAll_along (F := F) (tr := A ++ .setLen n :: B) (fl := fl) (e := e) hm) fun _ => fFlushBuf_along
  exact key.conseq (fun _ h => h) (fun _ _ h => ⟨A, B, hA, hB', h.1, h.2⟩) (fun _ h => .inr (.inr ⟨A, B, hA, hB', h⟩)) s ⟨h0, hb, hc⟩

theorem fWritePhase_stage {F G : Bytes} {T1 T2 : Nat → Prop} {n t : Nat} {fl e mp moov} {p : Plan} {ol : Nat} {moved N atoms}
    (h1 : ∀ s ∈ stblAtoms moov, ∀ a, s.stco = some a ∨ s.co64 = some a → a.size.len < 2^64 ∧ a.pos + 16 < 2^64 ∧ ∀ i, a.pos ≤ i → i < a.pos + a.size.len → T1 i)
    (h2 : ∀ a ∈ p.updateAtoms, ∀ i, a.pos ≤ i → i < a.pos + a.size.headLen → T1 i ∧ T2 i)
    (h3 : ∀ k, addI (asI64 ol) p.lenDiff e = .ok k → asU64 k = n) (hw : Emits (newAtomsWr p atoms) N)
    (h4 : ∀ j < N.length, T2 (p.newAtomsStart + j))
    (h5 : ∀ k, addI (asI64 p.movedDataStart) p.lenDiff e = .ok k → asU64 k = t) (hm : At0 G t moved) :
    Hoare fl e (fun s => Roam F T1 [] s ∧ emptied s) (fWritePhase mp moov p ol moved atoms) (fun _ => WroteAll F G T1 T2 n t (t + moved.length)) (Stage F G T1 T2 n t) := by
  have back : ∀ A : List Op, (∀ op ∈ A, Inner T1 op) → Hoare fl e (Roam F T2 (A ++ [.setLen n])) (do
      fSeekStart p.newAtomsStart
      fEmit (newAtomsWr p atoms)
      let m ← (addI (asI64 p.movedDataStart) p.lenDiff).fw
      fSeekStart (asU64 m)
      fWriteAll moved
      fFlush) (fun _ => WroteAll F G T1 T2 n t (t + moved.length)) (Stage F G T1 T2 n t) := by
    intro A hA
    have hX : ∀ s, Roam F T2 (A ++ [.setLen n]) s → Stage F G T1 T2 n t s := fun s h => .inr (.inl ⟨A, hA, h⟩)
    refine .bind (fSeekStart_roam.conseq (fun _ h => h) (fun _ _ h => h) hX) fun _ =>
      .bind ((fEmit_roam hw h4).conseq (fun _ h => ⟨h.1, h.2.next⟩) (fun _ _ h => h.1) hX) fun _ => .bind (.E hX) fun k => ?_
    by_cases hk : addI (asI64 p.movedDataStart) p.lenDiff e = .ok k
    · rw [h5 k hk]
      exact (fMove_stage hA hm).conseq (fun _ h => h.1) (fun _ _ h => h) (fun _ h => h)
    · exact fun s hs => absurd hs.2 hk
  have hrest : Hoare fl e (fun s => Roam F T1 [] s ∧ emptied s) (do
      fAll (fPatchHead p.lenDiff) p.updateAtoms.reverse
      let k ← (addI (asI64 ol) p.lenDiff).fw
      fSetLen (asU64 k)
      fSeekStart p.newAtomsStart
      fEmit (newAtomsWr p atoms)
      let m ← (addI (asI64 p.movedDataStart) p.lenDiff).fw
      fSeekStart (asU64 m)
      fWriteAll moved
      fFlush) (fun _ => WroteAll F G T1 T2 n t (t + moved.length)) (Stage F G T1 T2 n t) := by
    rintro s0 ⟨hs0, hb0⟩
    obtain ⟨A, hA, hA'⟩ := hs0.ops
    rw [List.nil_append] at hA
    subst hA
    have hall : ∀ s, Roam F (fun i => T1 i ∧ T2 i) s0.trace s → (∀ op ∈ s.trace, Inner T1 op) ∧ ∀ j < s.buf.length, T2 (s.cur + j) := by
      intro s hs
      obtain ⟨B, hB, hB'⟩ := hs.ops
      refine ⟨fun op hop => ?_, fun j hj => (hs.pend j hj).2⟩
      rw [hB] at hop
      rcases List.mem_append.mp hop with hop | hop
      · exact hA' op hop
      · obtain ⟨off, b, k1, k2, k3⟩ := hB' op hop
        exact ⟨off, b, k1, k2, fun j hj => (k3 j hj).1⟩
    have hX : ∀ s, Roam F (fun i => T1 i ∧ T2 i) s0.trace s → Stage F G T1 T2 n t s := fun s hs =>
      .inl ⟨hs.replay, ⟨s.trace, rfl, (hall s hs).1⟩, fun j hj => (hs.pend j hj).1⟩
    refine Hoare.bind (P := Roam F (fun i => T1 i ∧ T2 i) s0.trace)
      ((fAll_hoare' _ fun a ha => fPatchHead_roam (h2 a (List.mem_reverse.mp ha))).conseq (fun _ h => h) (fun _ _ h => h) hX) (fun _ =>
      .bind (.E hX) fun k => ?_) s0 ⟨hs0.replay, ⟨[], by rw [List.append_nil], fun _ h => by cases h⟩, fun j hj => by
        rw [show s0.buf = [] from hb0] at hj; exact absurd hj (Nat.not_lt_zero j)⟩
    by_cases hk : addI (asI64 ol) p.lenDiff e = .ok k
    · rw [h3 k hk]
      rintro s ⟨hs, -⟩
      obtain ⟨hops, hpend⟩ := hall s hs
      refine Hoare.bind (P := fun s' => s' = s) (J := fun _ => Roam F T2 (s.trace ++ [.setLen n])) ?_ (fun _ => back s.trace hops) s rfl
      rintro s' rfl
      unfold fSetLen
      split
      · split
        · refine ⟨fun _ _ => ⟨?_, ⟨[], by rw [List.append_nil], fun _ h => by cases h⟩, hpend⟩, fun h => absurd rfl (h ())⟩
          dsimp only
          rw [List.foldl_append, hs.replay]; rfl
        · exact ⟨(fun _ h => by cases h), fun _ => hX _ (hs.congr rfl rfl hs.pend)⟩
      · exact ⟨(fun _ h => by cases h), fun _ => hX _ hs⟩
    · exact fun s hs => absurd hs.2 hk
  unfold fWritePhase
  split
  · refine .bind (J := fun _ s => Roam F T1 [] s ∧ emptied s) ?_ fun _ => hrest
    refine (fAll_hoare' _ fun s hs => ?_).conseq (fun _ h => h) (fun _ _ h => h) (fun _ h => .inl h)
    unfold fPatchStbl
    have hopt : ∀ (w : Nat) (x : Option AtomBounds), (w = 4 ∨ w = 8) → (∀ a, x = some a → s.stco = some a ∨ s.co64 = some a) →
        Hoare fl e (fun s => Roam F T1 [] s ∧ emptied s) (fOpt (fPatchTable w p.lenDiff) x) (fun _ s => Roam F T1 [] s ∧ emptied s) (Roam F T1 []) := by
      intro w x hw hx
      cases x with
      | none => exact .pure ()
      | some a =>
        obtain ⟨k1, k2, k3⟩ := h1 s hs a (hx a rfl)
        exact fPatchTable_roam hw k1 k2 k3
    exact .bind (hopt 4 _ (.inl rfl) fun a ha => .inl ha) fun _ => hopt 8 _ (.inr rfl) fun a ha => .inr ha
  · exact hrest

theorem Heads.bounds_end : ∀ (hs : Heads) (p : Nat), ∀ a ∈ hs.bounds p, a.pos + a.size.headLen ≤ p + hs.old.length := by
  intro hs
  induction hs with
  | nil => intro p a ha; cases ha
  | cons x hs ih =>
    intro p a ha
    have hl : Heads.old (x :: hs) = x.1.head ++ x.2.2 ++ Heads.old hs := rfl
    rw [hl]
    simp only [List.length_append, Box.head_length]
    rcases List.mem_cons.mp ha with rfl | ha
    · show p + x.1.headLen ≤ _
      omega
    · have := ih _ a ha; omega

theorem put_length_growth {f : File} {X : Bytes} {atoms : List AtomData} (ht : f.MediaBehind → f.moov.Tables) :
    ((X ++ (f.put atoms).ser).length : Int) = (X ++ f.ser).length + f.growth atoms := by
  have h1 : (serL MoovKid.box (f.put atoms).moov).length = (serL MoovKid.box (f.moov.put id atoms)).length := put_shift_length ht
  have h2 : ((serL MoovKid.box (f.moov.put id atoms)).length : Int) - (serL MoovKid.box f.moov).length = f.growth atoms := rfl
  have h3 : (X ++ (f.put atoms).ser).length = X.length + f.ftypBox.ser.length + (serL id f.pre).length + (f.put atoms).moovBox.ser.length + (serL id f.post).length := by
    show (X ++ (f.ftypBox.ser ++ serL id f.pre ++ (f.put atoms).moovBox.ser ++ serL id f.post)).length = _
    simp only [List.length_append]; omega
  have h4 : (f.put atoms).moovBox.ser.length = f.moovBox.headLen + (serL MoovKid.box (f.put atoms).moov).length := Box.ser_length _
  have h5 : f.moovBox.ser.length = f.moovBox.headLen + (serL MoovKid.box f.moov).length := Box.ser_length _
  rw [h3, h4]
  simp only [File.ser, List.length_append]; omega

/-- Writing a well-formed file with failing calls: with `m` the position of what is moved. -/
theorem writeTagF_stage {e : Env} {f : File} {X : Bytes} {atoms : List AtomData} (fl : Faults) (hF : Fit e (X ++ f.ser)) (hw : f.WF)
    (hs : ∀ a ∈ atoms, Storable a) (ho : (X ++ f.ser).length < 2^62) (hn : (X ++ (f.put atoms).ser).length < 2^62)
    (ht : f.MediaBehind → f.moov.Tables) :
    ∃ m t : Nat, f.moovPos X.length ≤ m ∧ m ≤ f.moovEnd X.length ∧ f.moovPos X.length ≤ t ∧ (t : Int) = m + f.growth atoms ∧
      (X ++ (f.put atoms).ser).drop t = (X ++ f.ser).drop m ∧
      Stage (X ++ f.ser) (X ++ (f.put atoms).ser) (fun i => f.moovPos X.length ≤ i ∧ i < f.moovEnd X.length) (fun i => f.moovPos X.length ≤ i ∧ i < t)
        (X ++ (f.put atoms).ser).length t (writeTagF fl e (X ++ f.ser) X.length atoms).2 ∧
      ((writeTagF fl e (X ++ f.ser) X.length atoms).1 = .ok () →
        WroteAll (X ++ f.ser) (X ++ (f.put atoms).ser) (fun i => f.moovPos X.length ≤ i ∧ i < f.moovEnd X.length) (fun i => f.moovPos X.length ≤ i ∧ i < t)
          (X ++ (f.put atoms).ser).length t (X ++ (f.put atoms).ser).length (writeTagF fl e (X ++ f.ser) X.length atoms).2) := by
  have hX : (X ++ f.ser).length = f.moovPos X.length + f.moovBox.ser.length + (serL id f.post).length := by
    simp only [File.ser, List.length_append, Spec.File.moovPos]; omega
  have hX' : (X ++ (f.put atoms).ser).length = f.moovPos X.length + (f.put atoms).moovBox.ser.length + (serL id f.post).length := by
    show (X ++ (f.ftypBox.ser ++ serL id f.pre ++ (f.put atoms).moovBox.ser ++ serL id f.post)).length = _
    simp only [List.length_append, Spec.File.moovPos]; omega
  have hend : f.moovEnd X.length = f.moovPos X.length + f.moovBox.ser.length := rfl
  have hgrow := put_length_growth (X := X) (atoms := atoms) ht
  have hb : f.moovBox.body = serL MoovKid.box f.moov := rfl
  have hb' : (f.put atoms).moovBox.body.length = (serL MoovKid.box (f.moov.put id atoms)).length := put_shift_length ht
  have hml := moovB_end (q := f.moovPos X.length) (b := f.moovBox) (m := f.moov) rfl
  have hmi := moovB_in (q := f.moovPos X.length) (b := f.moovBox) (m := f.moov) rfl (by omega)
  rw [← hend] at hml
  rw [Box.ser_length] at hX hX' hend
  have hhl : (f.put atoms).moovBox.headLen = f.moovBox.headLen := rfl
  obtain ⟨pl⟩ := exists_place (e := e) (q := f.moovPos X.length) (b := f.moovBox) (m := f.moov) hs hb
    (by rw [Box.ser_length]; omega) (by omega) hw.2.2.1
  have hold : (serL MoovKid.box f.moov).length = (serL MoovKid.box pl.before).length + pl.inner.old.length + pl.old.length + pl.rest.length := by
    rw [pl.ser]; simp only [List.length_append]
  have hnew : (serL MoovKid.box (f.moov.put id atoms)).length = (serL MoovKid.box pl.before).length + pl.inner.old.length + pl.new.length + pl.rest.length := by
    rw [pl.put id, mapTrak_id]; simp only [List.length_append]; rw [Heads.length pl.ok]
  have hst := pl.start
  have hmv := pl.moved
  have hdf := pl.diff
  rw [hb] at hX hend
  -- the end of both files
  have hFd : (X ++ f.ser).drop pl.plan.movedDataStart = pl.rest ++ serL id f.post := by
    have : X ++ f.ser = (X ++ f.ftypBox.ser ++ serL id f.pre ++ f.moovBox.head ++ serL MoovKid.box pl.before ++ pl.inner.old ++ pl.old) ++ (pl.rest ++ serL id f.post) := by
      simp only [File.ser, Box.ser, List.append_assoc]
      rw [hb, pl.ser]
      simp only [List.append_assoc]
    rw [this]
    refine List.drop_left' ?_
    have h1 := hst
    unfold Spec.File.moovPos at h1
    simp only [List.length_append, Box.head_length]
    omega
  have hGd : (X ++ (f.put atoms).ser).drop (pl.plan.newAtomsStart + pl.new.length) = pl.rest ++ serL id f.post := by
    generalize hg : (if f.MediaBehind then Spec.Trak.shift (f.growth atoms) else id) = g
    have hpm : (f.put atoms).moovBox.body = serL MoovKid.box (f.moov.put g atoms) := by rw [← hg]; rfl
    have : X ++ (f.put atoms).ser = (X ++ f.ftypBox.ser ++ serL id f.pre ++ (f.put atoms).moovBox.head
        ++ serL MoovKid.box (pl.before.map (MoovKid.mapTrak g)) ++ pl.inner.new ++ pl.new) ++ (pl.rest ++ serL id f.post) := by
      show X ++ (f.ftypBox.ser ++ serL id f.pre ++ (f.put atoms).moovBox.ser ++ serL id f.post) = _
      simp only [Box.ser, List.append_assoc]
      rw [hpm, pl.put g]
      simp only [List.append_assoc]
    have hl := congrArg List.length hpm
    rw [hb', hnew, pl.put g] at hl
    simp only [List.length_append] at hl
    rw [this]
    refine List.drop_left' ?_
    have h1 := hst
    unfold Spec.File.moovPos at h1
    simp only [List.length_append, Box.head_length]
    omega
  obtain ⟨c, hc⟩ := preparePhase_at (atoms := atoms) hF hw pl.plans (by omega)
  refine ⟨pl.plan.movedDataStart, pl.plan.newAtomsStart + pl.new.length, by omega, by omega, by omega, by omega, by rw [hFd, hGd], ?_⟩
  have h0 : Roam (X ++ f.ser) (fun i => f.moovPos X.length ≤ i ∧ i < f.moovEnd X.length) [] { file := X ++ f.ser, cur := e.rcur 0 } :=
    ⟨rfl, ⟨[], rfl, fun _ h => by cases h⟩, fun j hj => absurd hj (Nat.not_lt_zero j)⟩
  unfold writeTagF
  cases hsr : fl.search
  · simp only [Bool.false_eq_true, if_false]
    rw [hc]
    have key := fWritePhase_stage (F := X ++ f.ser) (G := X ++ (f.put atoms).ser) (fl := fl)
      (T1 := fun i => f.moovPos X.length ≤ i ∧ i < f.moovEnd X.length) (T2 := fun i => f.moovPos X.length ≤ i ∧ i < pl.plan.newAtomsStart + pl.new.length)
      (n := (X ++ (f.put atoms).ser).length) (t := pl.plan.newAtomsStart + pl.new.length) (e := e) (mp := f.mdatPos X.length)
      (moov := moovB (f.moovPos X.length) f.moovBox f.moov) (ol := (X ++ f.ser).length) (moved := (X ++ f.ser).drop pl.plan.movedDataStart)
      (atoms := atoms) (p := pl.plan)
      (by
        intro s hs a ha
        obtain ⟨k1, k2⟩ := hml s hs
        obtain ⟨k3, k4⟩ := hmi s hs
        have h1 : a.pos + a.size.len ≤ f.moovEnd X.length ∧ f.moovPos X.length ≤ a.pos ∧ a.pos + 16 < 2^64 := by
          rcases ha with ha | ha
          · exact ⟨k1 a ha, k3 a ha⟩
          · exact ⟨k2 a ha, k4 a ha⟩
        exact ⟨by omega, h1.2.2, fun i hi1 hi2 => ⟨by omega, by omega⟩⟩)
      (by
        intro a ha i hi1 hi2
        rw [← List.mem_reverse, pl.bounds] at ha
        rcases List.mem_cons.mp ha with rfl | ha
        · have hi2 : i < f.moovPos X.length + f.moovBox.headLen := hi2
          exact ⟨⟨hi1, by omega⟩, hi1, by omega⟩
        · have := Heads.bounds_ge _ _ a ha
          have := Heads.bounds_end _ _ a ha
          exact ⟨⟨by omega, by omega⟩, by omega, by omega⟩)
      (by
        intro n hn'
        rw [asI64_lt (by omega)] at hn'
        rw [addI_small hn' (by omega) (by omega)]
        have := asU64_int (n := ((X ++ f.ser).length : Int) + pl.plan.lenDiff) (by omega) (by omega)
        omega)
      pl.emits
      (fun j hj => ⟨by omega, by omega⟩)
      (by
        intro n hn'
        rw [asI64_lt (by omega)] at hn'
        rw [addI_small hn' (by omega) (by omega)]
        have := asU64_int (n := (pl.plan.movedDataStart : Int) + pl.plan.lenDiff) (by omega) (by omega)
        omega)
      (fun hne => by
        rw [hFd, ← hGd] at hne ⊢
        refine At_intro' ((X ++ (f.put atoms).ser).take (pl.plan.newAtomsStart + pl.new.length)) [] ?_ ?_
        · rw [List.append_nil, List.take_append_drop]
        · rw [List.length_take, Nat.min_eq_left]
          apply Decidable.byContradiction
          intro hc
          exact hne (List.drop_of_length_le (by omega)))
    obtain ⟨k1, k2⟩ := key { file := X ++ f.ser, cur := e.rcur 0 } ⟨h0, rfl⟩
    dsimp only
    refine ⟨Stage.drop ?_, fun hok => ?_⟩
    · generalize fWritePhase (f.mdatPos X.length) (moovB (f.moovPos X.length) f.moovBox f.moov) pl.plan (X ++ f.ser).length
        ((X ++ f.ser).drop pl.plan.movedDataStart) atoms fl e { file := X ++ f.ser, cur := e.rcur 0 } = r at k1 k2
      rcases hr : r.1 with a | k | _ | _
      · obtain ⟨A, B, h1, h2, h3, -⟩ := k1 a hr
        exact .inr (.inr ⟨A, B, h1, h2, h3⟩)
      all_goals exact k2 fun a ha => by rw [hr] at ha; cases ha
    · obtain ⟨A, B, h1, h2, h3, h4, h5⟩ := k1 () hok
      have hlen := congrArg List.length hFd
      simp only [List.length_append, List.length_drop] at hlen
      have hd : ∀ s : FSt, s.buf = [] → fDrop fl e s = s := fun s h => by unfold fDrop fFlushBuf; rw [h]; rfl
      rw [hd _ h4]
      refine ⟨A, B, h1, h2, h3, h4, ?_⟩
      rw [h5, hFd, List.length_append]
      omega
  · simp only [if_true]
    exact ⟨.inl h0, fun h => by cases h⟩

end Mp4
