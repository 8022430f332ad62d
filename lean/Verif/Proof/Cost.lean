import Verif.Proof.WriteSpec
import Verif.Proof.Late
import Verif.Proof.Boundary
/-
How many bytes are written, and in how many system calls.
-/
namespace Mp4
open Spec

theorem written_append (a b : List Op) : written (a ++ b) = written a + written b := by
  simp only [written, List.map_append, List.sum_append]

theorem written_write (off : Nat) (b : Bytes) : written [.write off b] = b.length := by simp [written, opBytes]

/-- The bytes written, or to be written when the buffer is flushed. -/
def pending (s : WSt) : Nat := written s.trace + s.buf.length

/-- From `s` to `s'`, `n` bytes are written. Two calls that are not forced write at least as many bytes as the buffer holds; `k` more are
forced. -/
structure Costs (e : Env) (s s' : WSt) (n k : Nat) : Prop where
  bytes : pending s' = pending s + n
  calls : e.cap * s'.trace.length + s'.buf.length + 2 * pending s ≤ e.cap * s.trace.length + s.buf.length + 2 * pending s' + e.cap * k

theorem Costs.trans {e s s1 s2 n1 k1 n2 k2} (h1 : Costs e s s1 n1 k1) (h2 : Costs e s1 s2 n2 k2) : Costs e s s2 (n1 + n2) (k1 + k2) := by
  obtain ⟨a1, b1⟩ := h1
  obtain ⟨a2, b2⟩ := h2
  refine ⟨by omega, ?_⟩
  rw [Nat.mul_add e.cap k1 k2]
  omega

theorem Costs.mono {e s s' n k k'} (h : Costs e s s' n k) (hk : k ≤ k') : Costs e s s' n k' :=
  ⟨h.bytes, Nat.le_trans h.calls (Nat.add_le_add_left (Nat.mul_le_mul_left _ hk) _)⟩

/-- Nothing is written. -/
theorem Costs.still {e s s'} (h1 : s'.trace = s.trace) (h2 : s'.buf = s.buf) : Costs e s s' 0 0 := by
  have h : pending s' = pending s := by unfold pending; rw [h1, h2]
  exact ⟨h, by rw [h1, h2, h]; omega⟩

/-- A call that succeeds writes `n` bytes and forces at most `k` system calls. -/
def Cost {α} (e : Env) (c : W α) (Q : α → Prop) (n k : Nat) : Prop := ∀ s a s', c e s = (.ok a, s') → Q a ∧ Costs e s s' n k

theorem W.bind_inv {α β} {m : W α} {f : α → W β} {e s b s'} (h : (m >>= f) e s = (.ok b, s')) :
    ∃ a s1, m e s = (.ok a, s1) ∧ f a e s1 = (.ok b, s') := by
  have h : W.bind m f e s = (.ok b, s') := h
  unfold W.bind at h
  split at h
  · exact ⟨_, _, by assumption, h⟩
  all_goals cases h

theorem Cost.bind {α β e n1 k1 n2 k2} {m : W α} {f : α → W β} {Q : α → Prop} {R : β → Prop} (h1 : Cost e m Q n1 k1)
    (h2 : ∀ a, Q a → Cost e (f a) R n2 k2) : Cost e (m >>= f) R (n1 + n2) (k1 + k2) := by
  intro s b s' h
  obtain ⟨a, s1, g1, g2⟩ := W.bind_inv h
  obtain ⟨q, c1⟩ := h1 _ _ _ g1
  obtain ⟨r, c2⟩ := h2 a q _ _ _ g2
  exact ⟨r, c1.trans c2⟩

theorem Cost.mono {α e n k k'} {m : W α} {Q : α → Prop} (h : Cost e m Q n k) (hk : k ≤ k') : Cost e m Q n k' :=
  fun s a s' hr => ⟨(h s a s' hr).1, (h s a s' hr).2.mono hk⟩

theorem Cost.pure {α e} {a : α} {Q : α → Prop} (h : Q a) : Cost e (Pure.pure a : W α) Q 0 0 := by
  intro s b s' hr
  cases hr
  exact ⟨h, .still rfl rfl⟩

theorem Cost.E {α e} {m : E α} : Cost e m.w (fun a => m e = .ok a) 0 0 := by
  intro s a s' h
  unfold E.w at h
  injection h with h1 h2
  subst h2
  exact ⟨h1, .still rfl rfl⟩

theorem sysWrite_trace (s : WSt) (b : Bytes) : (s.sysWrite b).trace = if b.isEmpty then s.trace else s.trace ++ [.write s.cur b] := by
  unfold WSt.sysWrite; split <;> rfl

theorem flush_costs (e : Env) (s : WSt) : Costs e s s.flushBuf 0 1 := by
  have h1 := flushBuf_trace s
  have h2 := flushBuf_buf s
  by_cases h : s.buf = []
  · rw [if_pos h] at h1
    exact (Costs.still h1 (by rw [h2, h])).mono (by omega)
  · rw [if_neg h] at h1
    have ht : pending s.flushBuf = pending s := by
      unfold pending; rw [h1, h2, written_append, written_write]; rfl
    refine ⟨ht, ?_⟩
    rw [ht, h1, h2, List.length_append, List.length_singleton, Nat.mul_add]
    simp only [List.length_nil]
    omega

theorem Cost.wFlush {e} : Cost e wFlush (fun _ => True) 0 1 := by
  intro s a s' h
  unfold Mp4.wFlush at h
  cases h
  exact ⟨trivial, flush_costs e s⟩

theorem Cost.wSeekStart {e n} : Cost e (wSeekStart n) (fun _ => True) 0 1 := by
  intro s a s' h
  unfold Mp4.wSeekStart at h
  dsimp only at h
  split at h
  · cases h
    exact ⟨trivial, (flush_costs e s).trans (n2 := 0) (k2 := 0) (.still rfl rfl)⟩
  · cases h

theorem Cost.wSeekCur {e n} : Cost e (wSeekCur n) (fun _ => True) 0 1 := by
  intro s a s' h
  unfold Mp4.wSeekCur at h
  dsimp only at h
  split at h
  · cases h
    exact ⟨trivial, (flush_costs e s).trans (n2 := 0) (k2 := 0) (.still rfl rfl)⟩
  · cases h

theorem Cost.wSetLen {e n} : Cost e (wSetLen n) (fun _ => True) 0 1 := by
  intro s a s' h
  unfold Mp4.wSetLen at h
  split at h
  · cases h
    have ht : pending { s with file := fileSetLen s.file n, trace := s.trace ++ [.setLen n] } = pending s := by
      simp [pending, written_append, written, opBytes]
    refine ⟨trivial, ht, ?_⟩
    rw [ht]
    dsimp only
    rw [List.length_append, List.length_singleton, Nat.mul_add]
    omega
  · cases h

theorem sys_costs {e : Env} {s : WSt} {b : Bytes} (hb : e.cap ≤ b.length) :
    pending (s.sysWrite b) = pending s + b.length ∧
    e.cap * (s.sysWrite b).trace.length + s.buf.length ≤ e.cap * s.trace.length + s.buf.length + b.length := by
  have h1 := sysWrite_trace s b
  have h2 := sysWrite_buf s b
  by_cases h : b.isEmpty
  · rw [if_pos h] at h1
    have := List.isEmpty_iff.mp h
    subst this
    exact ⟨by unfold pending; rw [h1, h2]; rfl, by rw [h1]; omega⟩
  · rw [if_neg h] at h1
    refine ⟨?_, ?_⟩
    · unfold pending; rw [h1, h2, written_append, written_write]; omega
    · rw [h1, List.length_append, List.length_singleton, Nat.mul_add]; omega

theorem push_costs {e : Env} (s : WSt) (b : Bytes) : Costs e s { s with buf := s.buf ++ b } b.length 0 := by
  have ht : pending { s with buf := s.buf ++ b } = pending s + b.length := by
    unfold pending; dsimp only; rw [List.length_append]; omega
  refine ⟨ht, ?_⟩
  rw [ht]
  dsimp only
  rw [List.length_append]
  omega

theorem Cost.wWriteAll {e b} : Cost e (wWriteAll b) (fun _ => True) b.length 0 := by
  intro s a s' h
  refine ⟨trivial, ?_⟩
  unfold Mp4.wWriteAll at h
  split at h
  · cases h
    exact push_costs s b
  · rename_i hge
    dsimp only at h
    by_cases hgt : b.length > e.cap - s.buf.length
    · rw [if_pos hgt] at h
      have ht : pending s.flushBuf = pending s := (flush_costs e s).bytes
      have hf1 := flushBuf_trace s
      have hf2 := flushBuf_buf s
      have hl : e.cap * s.flushBuf.trace.length ≤ e.cap * s.trace.length + e.cap := by
        rw [hf1]
        split
        · omega
        · rw [List.length_append, List.length_singleton, Nat.mul_add]; omega
      by_cases hc : b.length ≥ e.cap
      · rw [if_pos hc] at h
        cases h
        obtain ⟨h1, h2⟩ := sys_costs (s := s.flushBuf) hc
        refine ⟨by rw [h1, ht], ?_⟩
        rw [h1, ht, sysWrite_buf, hf2]
        rw [hf2] at h2
        simp only [List.length_nil] at h2 ⊢
        omega
      · rw [if_neg hc] at h
        cases h
        obtain ⟨h1, h2⟩ := push_costs (e := e) s.flushBuf b
        refine ⟨by rw [h1, ht], ?_⟩
        rw [h1, ht]
        dsimp only
        rw [hf2, List.nil_append]
        omega
    · rw [if_neg hgt] at h
      by_cases hc : b.length ≥ e.cap
      · rw [if_pos hc] at h
        cases h
        obtain ⟨h1, h2⟩ := sys_costs (s := s) hc
        refine ⟨h1, ?_⟩
        rw [h1, sysWrite_buf]
        omega
      · rw [if_neg hc] at h
        cases h
        exact push_costs s b

theorem Cost.wAll {α e} {f : α → W Unit} {n k : α → Nat} (h : ∀ a, Cost e (f a) (fun _ => True) (n a) (k a)) :
    ∀ l : List α, Cost e (wAll f l) (fun _ => True) (l.map n).sum (l.map k).sum
  | [] => .pure trivial
  | x :: xs => by
    rw [List.map_cons, List.map_cons, List.sum_cons, List.sum_cons]
    exact .bind (h x) fun _ _ => Cost.wAll h xs

theorem flatten_length (cs : List Bytes) : (cs.map List.length).sum = cs.flatten.length := by
  rw [List.length_flatten]

theorem Cost.wEmit {e} {m : Wr Unit} {b : Bytes} (h : Emits m b) : Cost e (wEmit m) (fun _ => True) b.length 0 := by
  obtain ⟨cs, h1, h2⟩ := h e
  intro s a s' hr
  unfold Mp4.wEmit at hr
  rw [h1] at hr
  dsimp only at hr
  have key := Cost.wAll (e := e) (f := Mp4.wWriteAll) (n := List.length) (k := fun _ => 0) (fun _ => Cost.wWriteAll) cs s
  rcases hc : Mp4.wAll Mp4.wWriteAll cs e s with ⟨r, s1⟩
  rw [hc] at hr
  cases r with
  | ok u =>
    cases hr
    obtain ⟨-, c⟩ := key u _ hc
    rw [flatten_length, h2, List.map_const', List.sum_replicate_nat, Nat.mul_zero] at c
    exact ⟨trivial, c⟩
  | err k => cases hr
  | panic => cases hr
  | fuel => cases hr

theorem Cost.wRead {α e pos} {p : P α} : Cost e (wRead pos p) (fun a => ∃ F q q', p e F q = .ok (a, q')) 0 0 := by
  intro s a s' h
  unfold Mp4.wRead at h
  dsimp only at h
  split at h
  · rename_i hr
    cases h
    obtain ⟨_, q1, h1, h2⟩ := P.bind_inv hr
    exact ⟨⟨_, _, _, h2⟩, .still rfl rfl⟩
  all_goals cases h

theorem parseTable_count {w : Nat} (hw : 0 < w) {size : Size} {n : Nat} {e F p tp os q} (hn : size.contentLen e = .ok n)
    (h : parseTable w size e F p = .ok ((tp, os), q)) : 8 + w * os.length = n := by
  unfold parseTable at h
  obtain ⟨⟨v, fl⟩, p1, h1, h2⟩ := P.bind_inv h
  dsimp only at h2
  split at h2
  · obtain ⟨m, p2, h3, h4⟩ := P.bind_inv h2
    obtain ⟨cl, p3, h5, h6⟩ := P.bind_inv h4
    rw [E.p_ok hn] at h5
    cases h5
    split at h6
    · cases h6
    · rename_i hne
      obtain ⟨t, p4, h7, h8⟩ := P.bind_inv h6
      obtain ⟨o, p5, h9, h10⟩ := P.bind_inv h8
      obtain ⟨h11, -⟩ := P.pure_inv h10
      cases h11
      rw [(readTable_inv w hw _ _ _ _ h9).1]
      exact Decidable.not_not.mp hne
  · cases h2

theorem Cost.patchTable {e} {w : Nat} (hw : w = 4 ∨ w = 8) {d : Int} {q : Nat} {b : Box} :
    Cost e (patchTable w d ⟨q, b.size⟩) (fun _ => True) (w * (offsets w b.body).length) 2 := by
  have hw0 : 0 < w := by omega
  intro s a s' h
  refine ⟨trivial, ?_⟩
  unfold Mp4.patchTable at h
  obtain ⟨pos, s1, h1, h⟩ := W.bind_inv h
  obtain ⟨⟨tp, os⟩, s2, h2, h⟩ := W.bind_inv h
  obtain ⟨-, c1⟩ := Cost.E _ _ _ h1
  obtain ⟨⟨F, p, p', hp⟩, c2⟩ := Cost.wRead _ _ _ h2
  have hcnt := parseTable_count hw0 (b.contentLen e) hp
  have hlen : (offsets w b.body).length = os.length := by
    rw [offsets, List.length_map, pieces_length, ← hcnt, Nat.add_sub_cancel_left, Nat.mul_div_cancel_left _ hw0]
  have key : Cost e (do
      Mp4.wSeekStart tp
      Mp4.wAll (fun co => do
        let n ← (addI (asI64 co) d).w
        Mp4.wWriteAll (toBe w (asU64 n))) os
      Mp4.wFlush : W Unit) (fun _ => True) (0 + ((os.map fun _ => 0 + w).sum + 0)) (1 + ((os.map fun _ => 0 + 0).sum + 1)) := by
    refine .bind .wSeekStart fun _ _ => .bind (.wAll (fun co => .bind .E fun n _ => ?_) os) fun _ _ => .wFlush
    have := Cost.wWriteAll (e := e) (b := toBe w (asU64 n))
    rw [toBe_length] at this
    exact this
  have := (c1.trans c2).trans (key _ _ _ h).2
  simp only [List.map_const', List.sum_replicate_nat, Nat.zero_add, Nat.add_zero, Nat.mul_zero] at this
  rw [hlen, Nat.mul_comm]
  exact this

theorem Cost.wOpt {α e} {f : α → W Unit} {n : α → Nat} {k : Nat} (h : ∀ a, Cost e (f a) (fun _ => True) (n a) k) (x : Option α) :
    Cost e (wOpt f x) (fun _ => True) ((x.map n).getD 0) k := by
  cases x with
  | none => exact (Cost.pure trivial).mono (Nat.zero_le _)
  | some a => exact h a

theorem Cost.patchHead {e} {d : Int} {a : AtomBounds} : Cost e (patchHead d a) (fun _ => True) (fieldLen a.size.ext) 2 := by
  unfold Mp4.patchHead
  cases h : a.size.ext with
  | false =>
    have := fun b => Cost.wWriteAll (e := e) (b := b)
    exact (Cost.bind (n1 := 0) (n2 := 4) (k1 := 0) (k2 := 1) .E fun n _ => Cost.bind (n1 := 0) (n2 := 4) (k1 := 1) (k2 := 0) .wSeekStart fun _ _ => this _).mono (by omega)
  | true =>
    have := fun b => Cost.wWriteAll (e := e) (b := b)
    exact Cost.bind (n1 := 0) (n2 := 12) (k1 := 0) (k2 := 2) .E fun n _ => Cost.bind (n1 := 0) (n2 := 12) (k1 := 1) (k2 := 1) .wSeekStart fun _ _ =>
      Cost.bind (n1 := 4) (n2 := 8) (k1 := 0) (k2 := 1) (this _) fun _ _ => Cost.bind (n1 := 0) (n2 := 8) (k1 := 1) (k2 := 0) .wSeekCur fun _ _ => this _

/-! ### The tables -/

/-- The last leaf of a kind. -/
theorem lastAt_leaf_sel (fc : Fourcc) (p : Nat) (s : List Box) :
    ((s.filterMap (Box.sel fc)).getLast? = none ∧ lastAt id (leafAt fc) p s = none) ∨
    ∃ (q : Nat) (b : Box), (s.filterMap (Box.sel fc)).getLast? = some b.body ∧ lastAt id (leafAt fc) p s = some ⟨q, b.size⟩ := by
  rcases last_split (fun b : Box => b.fc = fc) s with h | ⟨A, k, B, rfl, hk, hB⟩
  · refine .inl ⟨?_, lastAt_none (fun k hk q => by rw [leafAt, if_neg (h k hk)]) _⟩
    rw [List.filterMap_eq_nil_iff.mpr fun k hk => show Box.sel fc k = none from if_neg (h k hk)]; rfl
  · refine .inr ⟨p + (serL id A).length, k, ?_, lastAt_split (by rw [leafAt, if_pos hk]) (fun x hx q => by rw [leafAt, if_neg (hB x hx)])⟩
    rw [List.filterMap_append, List.filterMap_cons_some (show Box.sel fc k = some k.body from if_pos hk),
      List.filterMap_eq_nil_iff.mpr fun k hk => show Box.sel fc k = none from if_neg (hB k hk)]
    simp

/-- The last child of a kind. -/
theorem lastAt_kid_sel {α β} {box : Kid α → Box} {g : Nat → Box → α → β} (p : Nat) (ks : List (Kid α)) :
    ((ks.filterMap Kid.sel).getLast? = none ∧ lastAt box (kidAt box g) p ks = none) ∨
    ∃ (q : Nat) (b : Box) (a : α), (ks.filterMap Kid.sel).getLast? = some a ∧ lastAt box (kidAt box g) p ks = some (g q b a) := by
  rcases last_split (fun k : Kid α => k.sel.isSome) ks with h | ⟨A, k, B, rfl, hk, hB⟩
  · have h' : ∀ k ∈ ks, k.sel = none := fun k hk => by simpa using h k hk
    refine .inl ⟨by rw [List.filterMap_eq_nil_iff.mpr h']; rfl, lastAt_none (fun k hk q => ?_) _⟩
    have := h' k hk
    cases k with
    | node ext a => cases this
    | raw b => rfl
  · have hB' : ∀ k ∈ B, k.sel = none := fun k hk => by simpa using hB k hk
    cases k with
    | raw b => cases hk
    | node ext a =>
      refine .inr ⟨p + (serL box A).length, box (.node ext a), a, ?_, lastAt_split rfl fun x hx q => ?_⟩
      · rw [List.filterMap_append, List.filterMap_cons_some (show Kid.sel (.node ext a) = some a from rfl), List.filterMap_eq_nil_iff.mpr hB']
        simp
      · have := hB' x hx
        cases x with
        | node ext a => cases this
        | raw b => rfl

/-- The bytes of the chunk offsets of a sample table. -/
def stblBytes (s : Stbl) : Nat := 4 * s.chunks32.length + 8 * (s.chunks.length - s.chunks32.length)

theorem Cost.patchStbl {e} {d : Int} {q : Nat} {b : Box} {s : Stbl} : Cost e (patchStbl d (stblB q b s)) (fun _ => True) (stblBytes s) 4 := by
  have h4 : Cost e (Mp4.wOpt (Mp4.patchTable 4 d) (stblB q b s).stco) (fun _ => True) (4 * s.chunks32.length) 2 := by
    rcases lastAt_leaf_sel (cc 's' 't' 'c' 'o') (q + b.headLen) s with ⟨h1, h2⟩ | ⟨q', b', h1, h2⟩
    · rw [show (stblB q b s).stco = none from h2, Stbl.chunks32, h1]
      exact (Cost.pure trivial).mono (by omega)
    · rw [show (stblB q b s).stco = some ⟨q', b'.size⟩ from h2, Stbl.chunks32, h1]
      exact Cost.patchTable (.inl rfl)
  have h8 : Cost e (Mp4.wOpt (Mp4.patchTable 8 d) (stblB q b s).co64) (fun _ => True) (8 * (s.chunks.length - s.chunks32.length)) 2 := by
    rw [Stbl.chunks, Stbl.chunks32, List.length_append, Nat.add_sub_cancel_left]
    rcases lastAt_leaf_sel (cc 'c' 'o' '6' '4') (q + b.headLen) s with ⟨h1, h2⟩ | ⟨q', b', h1, h2⟩
    · rw [show (stblB q b s).co64 = none from h2, h1]
      exact (Cost.pure trivial).mono (by omega)
    · rw [show (stblB q b s).co64 = some ⟨q', b'.size⟩ from h2, h1]
      exact Cost.patchTable (.inr rfl)
  exact .bind h4 fun _ _ => h8

theorem Cost.trak {e} {d : Int} {q : Nat} {b : Box} {t : Spec.Trak} :
    Cost e (Mp4.wAll (Mp4.patchStbl d) (stblOf (trakB q b t)).toList) (fun _ => True) t.offsetBytes 4 := by
  have hnil : ∀ t : Spec.Trak, t.chunks = [] → t.chunks32 = [] → stblOf (trakB q b t) = none →
      Cost e (Mp4.wAll (Mp4.patchStbl d) (stblOf (trakB q b t)).toList) (fun _ => True) t.offsetBytes 4 := by
    intro t h1 h2 h3
    rw [h3, Trak.offsetBytes, h1, h2]
    exact (Cost.pure trivial).mono (by omega)
  rcases lastAt_kid_sel (box := Kid.box (cc 'm' 'd' 'i' 'a') Mdia.ser) (g := mdiaB) (q + b.headLen) t with ⟨h1, h2⟩ | ⟨q1, b1, a1, h1, h2⟩
  · exact hnil t (by rw [Trak.chunks, h1]; rfl) (by rw [Trak.chunks32, h1]; rfl) (by rw [trakB, h2]; rfl)
  rcases lastAt_kid_sel (box := Kid.box (cc 'm' 'i' 'n' 'f') Minf.ser) (g := minfB) (q1 + b1.headLen) a1 with ⟨h3, h4⟩ | ⟨q2, b2, a2, h3, h4⟩
  · exact hnil t (by rw [Trak.chunks, h1]; simp only [Option.map_some, Option.getD_some]; rw [Mdia.chunks, h3]; rfl)
      (by rw [Trak.chunks32, h1]; simp only [Option.map_some, Option.getD_some]; rw [Mdia.chunks32, h3]; rfl) (by rw [trakB, h2, mdiaB, h4]; rfl)
  rcases lastAt_kid_sel (box := Kid.box (cc 's' 't' 'b' 'l') Stbl.ser) (g := stblB) (q2 + b2.headLen) a2 with ⟨h5, h6⟩ | ⟨q3, b3, a3, h5, h6⟩
  · exact hnil t (by rw [Trak.chunks, h1]; simp only [Option.map_some, Option.getD_some]; rw [Mdia.chunks, h3]
                     simp only [Option.map_some, Option.getD_some]; rw [Minf.chunks, h5]; rfl)
      (by rw [Trak.chunks32, h1]; simp only [Option.map_some, Option.getD_some]; rw [Mdia.chunks32, h3]
          simp only [Option.map_some, Option.getD_some]; rw [Minf.chunks32, h5]; rfl) (by rw [trakB, h2, mdiaB, h4, minfB, h6]; rfl)
  have k1 : t.chunks = a3.chunks := by
    rw [Trak.chunks, h1]; simp only [Option.map_some, Option.getD_some]; rw [Mdia.chunks, h3]
    simp only [Option.map_some, Option.getD_some]; rw [Minf.chunks, h5]; rfl
  have k2 : t.chunks32 = a3.chunks32 := by
    rw [Trak.chunks32, h1]; simp only [Option.map_some, Option.getD_some]; rw [Mdia.chunks32, h3]
    simp only [Option.map_some, Option.getD_some]; rw [Minf.chunks32, h5]; rfl
  have k3 : stblOf (trakB q b t) = some (stblB q3 b3 a3) := by rw [trakB, h2, mdiaB, h4, minfB, h6]; rfl
  rw [k3, Trak.offsetBytes, k1, k2]
  exact .bind (n2 := 0) (k2 := 0) .patchStbl fun _ _ => .pure trivial

theorem Cost.append {α e} {f : α → W Unit} {l1 l2 : List α} {n1 k1 n2 k2} (h1 : Cost e (Mp4.wAll f l1) (fun _ => True) n1 k1)
    (h2 : Cost e (Mp4.wAll f l2) (fun _ => True) n2 k2) : Cost e (Mp4.wAll f (l1 ++ l2)) (fun _ => True) (n1 + n2) (k1 + k2) := by
  have split : ∀ (l1 : List α) s s', Mp4.wAll f (l1 ++ l2) e s = (.ok (), s') →
      ∃ s1, Mp4.wAll f l1 e s = (.ok (), s1) ∧ Mp4.wAll f l2 e s1 = (.ok (), s') := by
    intro l1
    induction l1 with
    | nil => intro s s' h; exact ⟨s, rfl, h⟩
    | cons x xs ih =>
      intro s s' h
      obtain ⟨_, s1, g1, g2⟩ := W.bind_inv h
      obtain ⟨s2, g3, g4⟩ := ih _ _ g2
      exact ⟨s2, (W.bind_ok g1).trans g3, g4⟩
  intro s a s' h
  obtain ⟨s1, g1, g2⟩ := split l1 s s' h
  exact ⟨trivial, (h1 _ _ _ g1).2.trans (h2 _ _ _ g2).2⟩

theorem Cost.moov {e} {d : Int} : ∀ (ks : Spec.Moov) (p : Nat),
    Cost e (Mp4.wAll (Mp4.patchStbl d) ((allAt MoovKid.box trakAt p ks).filterMap stblOf)) (fun _ => True) ks.offsetBytes (4 * ks.tracks)
  | [], _ => .pure trivial
  | k :: ks, p => by
    have hi := Cost.moov (e := e) (d := d) ks (p + k.box.ser.length)
    rw [allAt, List.filterMap_append]
    cases k with
    | trak ext t =>
      rw [Moov.offsetBytes, Moov.tracks, Nat.mul_add]
      refine .append ?_ hi
      have ht := Cost.trak (e := e) (d := d) (q := p) (b := (MoovKid.trak ext t).box) (t := t)
      have : (trakAt p (.trak ext t)).toList.filterMap stblOf = (stblOf (trakB p (MoovKid.trak ext t).box t)).toList := by
        rw [trakAt, Option.toList_some, List.filterMap_cons, List.filterMap_nil]
        cases stblOf (trakB p (MoovKid.trak ext t).box t) <;> rfl
      rw [this]
      exact ht
    | udta ext u => exact hi
    | raw b => exact hi

theorem bounds_fields : ∀ (hs : Heads) (p : Nat),
    ((hs.bounds p).map fun a => fieldLen a.size.ext).sum = (hs.map fun h => fieldLen h.1.ext).sum
  | [], _ => rfl
  | x :: hs, p => by
    rw [Heads.bounds, List.map_cons, List.map_cons, List.sum_cons, List.sum_cons, bounds_fields hs]
    rfl

theorem bounds_count : ∀ (hs : Heads) (p : Nat), (hs.bounds p).length = List.length hs
  | [], _ => rfl
  | x :: hs, p => by rw [Heads.bounds, List.length_cons, List.length_cons, bounds_count hs]

/-- Where the items are written to. -/
theorem exists_place_file {e : Env} {f : File} {X : Bytes} {atoms : List AtomData}
    (hs : ∀ a ∈ atoms, Storable a) (hw : f.WF) (ho : (X ++ f.ser).length < 2^62) (hn : (X ++ (f.put atoms).ser).length < 2^62)
    (ht : f.MediaBehind → f.moov.Tables) : Nonempty (Place e (f.moovPos X.length) f.moovBox f.moov atoms) := by
  refine exists_place hs rfl ?_ ?_ hw.2.2.1
  · have : (X ++ f.ser).length = f.moovPos X.length + f.moovBox.ser.length + (serL id f.post).length := by
      simp only [File.ser, List.length_append, File.moovPos]; omega
    omega
  · have h1 : (serL MoovKid.box (f.put atoms).moov).length = (serL MoovKid.box (f.moov.put id atoms)).length := put_shift_length ht
    have : (X ++ (f.put atoms).ser).length = X.length + f.ftypBox.ser.length + (serL id f.pre).length
        + ((f.put atoms).moovBox.headLen + (serL MoovKid.box (f.put atoms).moov).length) + (serL id f.post).length := by
      have hl : (f.put atoms).moovBox.ser.length = (f.put atoms).moovBox.headLen + (serL MoovKid.box (f.put atoms).moov).length :=
        Box.ser_length _
      show (X ++ (f.ftypBox.ser ++ serL id f.pre ++ (f.put atoms).moovBox.ser ++ serL id f.post)).length = _
      simp only [List.length_append]
      omega
    omega

/-- The file in parts. -/
theorem place_ser {e : Env} {f : File} {q : Nat} {atoms : List AtomData} (pl : Place e q f.moovBox f.moov atoms) :
    f.ser = (f.ftypBox.ser ++ serL id f.pre ++ f.moovBox.head ++ serL MoovKid.box pl.before ++ pl.inner.old) ++ pl.old ++ (f.change atoms).behind := by
  show _ = _ ++ ((f.moov.change atoms).behind ++ serL id f.post)
  rw [← pl.behind, File.ser, show f.moovBox.ser = f.moovBox.head ++ serL MoovKid.box f.moov from rfl, pl.ser]
  simp only [List.append_assoc]

theorem W.if_bind {α} {c : Prop} [Decidable c] {m : W Unit} {k : Unit → W α} :
    (if c then m >>= k else k () : W α) = ((if c then m else pure () : W Unit) >>= k) := by split <;> rfl

/-- What a save costs. -/
theorem write_cost {e : Env} {f : File} {X : Bytes} {atoms : List AtomData} (hF : Fit e (X ++ f.ser)) (hw : f.WF)
    (hs : ∀ a ∈ atoms, Storable a) (ho : (X ++ f.ser).length < 2^62) (hn : (X ++ (f.put atoms).ser).length < 2^62)
    (ht : f.MediaBehind → f.moov.Tables) {s : WSt}
    (hrun : writeTagTo e (X ++ f.ser) X.length atoms = (.ok (), s)) :
    written s.trace = f.adjusted + (f.change atoms).fields + (f.change atoms).fresh.length + (f.change atoms).behind.length ∧
    e.cap * s.trace.length ≤ 2 * written s.trace + e.cap * (4 * f.moov.tracks + 11) := by
  obtain ⟨pl⟩ := exists_place_file (e := e) hs hw ho hn ht
  have hser := place_ser pl
  have hst := pl.start
  have hmv := pl.moved
  unfold Spec.File.moovPos at hst
  have hpos : pl.plan.movedDataStart + (f.change atoms).behind.length = (X ++ f.ser).length := by
    rw [hser]
    simp only [List.length_append, Box.head_length]
    omega
  obtain ⟨c, hprep⟩ := preparePhase_at (atoms := atoms) hF hw pl.plans (by omega)
  have hdrop : ((X ++ f.ser).drop pl.plan.movedDataStart).length = (f.change atoms).behind.length := by
    rw [List.length_drop]; omega
  rw [writeTagTo, hprep] at hrun
  dsimp only at hrun
  generalize hr : writePhase (f.mdatPos X.length) (moovB (f.moovPos X.length) f.moovBox f.moov) pl.plan (X ++ f.ser).length
    ((X ++ f.ser).drop pl.plan.movedDataStart) atoms e { file := X ++ f.ser, cur := e.rcur 0 } = r at hrun
  generalize List.drop pl.plan.movedDataStart (X ++ f.ser) = moved at hr hdrop
  have htab : Cost e (if f.mdatPos X.length > (moovB (f.moovPos X.length) f.moovBox f.moov).bounds.pos
      then wAll (patchStbl pl.plan.lenDiff) (stblAtoms (moovB (f.moovPos X.length) f.moovBox f.moov)) else pure () : W Unit)
      (fun _ => True) f.adjusted (4 * f.moov.tracks) := by
    have hgt : f.mdatPos X.length > (moovB (f.moovPos X.length) f.moovBox f.moov).bounds.pos ↔ f.MediaBehind := mdatPos_gt f X.length
    by_cases hmb : f.MediaBehind
    · rw [if_pos (hgt.mpr hmb), File.adjusted, if_pos hmb]
      exact Cost.moov f.moov _
    · rw [if_neg fun h => hmb (hgt.mp h), File.adjusted, if_neg hmb]
      exact (Cost.pure trivial).mono (by omega)
  have hheads : Cost e (wAll (patchHead pl.plan.lenDiff) pl.plan.updateAtoms.reverse) (fun _ => True) (f.change atoms).fields 6 := by
    have h := Cost.wAll (e := e) (f := patchHead pl.plan.lenDiff) (n := fun a => fieldLen a.size.ext) (k := fun _ => 2) (fun _ => .patchHead)
      pl.plan.updateAtoms.reverse
    have h1 : (pl.plan.updateAtoms.reverse.map fun a => fieldLen a.size.ext).sum = (f.change atoms).fields := by
      rw [pl.bounds, List.map_cons, List.sum_cons, bounds_fields, pl.fields]
      rfl
    have h2 : (pl.plan.updateAtoms.reverse.map fun _ => 2).sum ≤ 6 := by
      rw [List.map_const', List.sum_replicate_nat, pl.bounds, List.length_cons, bounds_count]
      have := pl.few
      omega
    rw [h1] at h
    exact h.mono h2
  have hemit := Cost.wEmit (e := e) pl.emits
  rw [show pl.new = (f.change atoms).fresh from pl.fresh] at hemit
  have hmoved := Cost.wWriteAll (e := e) (b := moved)
  rw [hdrop] at hmoved
  obtain ⟨ro, rs⟩ := r
  dsimp only at hrun
  cases hrun
  unfold writePhase at hr
  dsimp only at hr
  rw [W.if_bind] at hr
  have key := (Cost.bind htab fun _ _ => Cost.bind hheads fun _ _ => Cost.bind .E fun n _ => Cost.bind .wSetLen fun _ _ =>
    Cost.bind .wSeekStart fun _ _ => Cost.bind hemit fun _ _ => Cost.bind .E fun m _ => Cost.bind .wSeekStart fun _ _ =>
    Cost.bind hmoved fun _ _ => Cost.wFlush) _ _ _ hr
  have h := key.2.trans (flush_costs e rs)
  obtain ⟨h1, h2⟩ := h.mono (k' := 4 * f.moov.tracks + 11) (by omega)
  have h3 : pending rs.flushBuf = written rs.flushBuf.trace := by unfold pending; rw [flushBuf_buf]; rfl
  have h4 : pending { file := X ++ f.ser, cur := e.rcur 0 } = 0 := rfl
  rw [h3, h4] at h1 h2
  refine ⟨by omega, ?_⟩
  simp only [List.length_nil, Nat.mul_zero] at h2
  omega

/-- The bytes behind the items stay; the bytes in front of them keep their length. -/
theorem change_parts {f : File} {atoms : List AtomData} (hs : ∀ a ∈ atoms, Storable a) (hw : f.WF) (ho : f.ser.length < 2^62)
    (hn : (f.put atoms).ser.length < 2^62) (ht : f.MediaBehind → f.moov.Tables) :
    ∃ Q old P, f.ser = Q ++ old ++ (f.change atoms).behind ∧ (f.put atoms).ser = P ++ (f.change atoms).fresh ++ (f.change atoms).behind ∧
      P.length = Q.length := by
  obtain ⟨pl⟩ := exists_place_file (X := []) (e := ⟨true, 0, 0, 0, id⟩) hs hw ho hn ht
  generalize hg : (if f.MediaBehind then Spec.Trak.shift (f.growth atoms) else id) = g
  have hpm : (f.put atoms).moovBox.body = serL MoovKid.box (f.moov.put g atoms) := by rw [← hg]; rfl
  have hgl : (serL MoovKid.box (pl.before.map (MoovKid.mapTrak g))).length = (serL MoovKid.box pl.before).length := by
    rw [← hg]
    split
    · rename_i h
      exact shift_length pl.before (fun ext t hk => ht h ext t (pl.sub _ hk))
    · rw [mapTrak_id]
  refine ⟨_, _, f.ftypBox.ser ++ serL id f.pre ++ (f.put atoms).moovBox.head ++ serL MoovKid.box (pl.before.map (MoovKid.mapTrak g)) ++ pl.inner.new,
    place_ser pl, ?_, ?_⟩
  · show f.ftypBox.ser ++ serL id f.pre ++ (f.put atoms).moovBox.ser ++ serL id f.post =
      _ ++ (f.moov.change atoms).fresh ++ ((f.moov.change atoms).behind ++ serL id f.post)
    rw [← pl.behind, ← pl.fresh, show (f.put atoms).moovBox.ser = (f.put atoms).moovBox.head ++ (f.put atoms).moovBox.body from rfl, hpm, pl.put g]
    simp only [List.append_assoc]
  · simp only [List.length_append, Box.head_length]
    rw [hgl, Heads.length pl.ok]
    rfl

end Mp4
