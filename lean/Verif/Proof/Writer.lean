import Verif.Model.Write
import Verif.Proof.Stream
import Verif.Proof.Emit
/-
The buffered writer: the file as it will be once the buffer is flushed, and the system calls so far.
-/
namespace Mp4
open Spec

/-- Where a system call begins to change the file. -/
def Op.lo : Op → Nat
  | .write off _ => off
  | .setLen n => n

/-- Once flushed, the file is `F` and the cursor `c`; the system calls lead from `F0` to the file and none of them
touches a byte in front of `m`. -/
structure Sees (F0 : Bytes) (m : Nat) (s : WSt) (F : Bytes) (c : Nat) : Prop where
  file : s.flushBuf.file = F
  cur : s.cur + s.buf.length = c
  low : ∀ op ∈ s.flushBuf.trace, m ≤ op.lo
  replay : s.trace.foldl Op.apply F0 = s.file

theorem flushBuf_file (s : WSt) : s.flushBuf.file = if s.buf = [] then s.file else writeAt s.file s.cur s.buf := by
  unfold WSt.flushBuf WSt.sysWrite
  by_cases h : s.buf = [] <;> simp [h]

theorem flushBuf_trace (s : WSt) : s.flushBuf.trace = if s.buf = [] then s.trace else s.trace ++ [.write s.cur s.buf] := by
  unfold WSt.flushBuf WSt.sysWrite
  by_cases h : s.buf = [] <;> simp [h]

theorem flushBuf_buf (s : WSt) : s.flushBuf.buf = [] := rfl

theorem flushBuf_cur (s : WSt) : s.flushBuf.cur = s.cur + s.buf.length := by
  unfold WSt.flushBuf WSt.sysWrite
  by_cases h : s.buf = [] <;> simp [h]

theorem flushBuf_flushBuf (s : WSt) : s.flushBuf.flushBuf = s.flushBuf := by
  unfold WSt.flushBuf WSt.sysWrite
  simp

/-! ### Writing to a byte sequence -/

theorem writeAt_get (F : Bytes) (c : Nat) (b : Bytes) (i : Nat) : (writeAt F c b)[i]? =
    if i < c then (if i < F.length then F[i]? else some 0) else if i < c + b.length then b[i - c]? else F[i]? := by
  unfold writeAt
  rw [List.append_assoc, List.append_assoc, List.getElem?_append, List.getElem?_append, List.getElem?_append]
  simp only [List.length_take, List.length_replicate, List.getElem?_take, List.getElem?_replicate, List.getElem?_drop]
  grind

theorem fileSetLen_get (F : Bytes) (n i : Nat) : (fileSetLen F n)[i]? =
    if i < n then (if i < F.length then F[i]? else some 0) else none := by
  unfold fileSetLen
  rw [List.getElem?_append]
  simp only [List.length_take, List.length_replicate, List.getElem?_take, List.getElem?_replicate]
  grind

theorem writeAt_length (F : Bytes) (c : Nat) (b : Bytes) : (writeAt F c b).length = max F.length (c + b.length) := by
  unfold writeAt
  simp only [List.length_append, List.length_take, List.length_replicate, List.length_drop]; omega

theorem fileSetLen_length (F : Bytes) (n : Nat) : (fileSetLen F n).length = n := by
  unfold fileSetLen
  simp only [List.length_append, List.length_take, List.length_replicate]; omega

theorem writeAt_nil (F : Bytes) (c : Nat) (h : c ≤ F.length) : writeAt F c [] = F := by
  unfold writeAt
  rw [Nat.sub_eq_zero_of_le h]
  simp

/-- Two consecutive writes are one write. -/
theorem writeAt_append (F : Bytes) (c : Nat) (a b : Bytes) : writeAt (writeAt F c a) (c + a.length) b = writeAt F c (a ++ b) := by
  apply List.ext_getElem?
  intro i
  rw [writeAt_get, writeAt_get, writeAt_get, writeAt_length, List.length_append, List.getElem?_append]
  grind

/-- A write and a later truncation behind it can be exchanged. -/
theorem setLen_writeAt (F : Bytes) (c n : Nat) (b : Bytes) (h : c + b.length ≤ n) :
    writeAt (fileSetLen F n) c b = fileSetLen (writeAt F c b) n := by
  apply List.ext_getElem?
  intro i
  rw [writeAt_get, fileSetLen_get, fileSetLen_get, writeAt_get, writeAt_length, fileSetLen_length]
  grind

/-- Overwriting a part. -/
theorem writeAt_part {c : Nat} (A old new B : Bytes) (h : old.length = new.length) (hc : A.length = c) :
    writeAt (A ++ old ++ B) c new = A ++ new ++ B := by
  subst hc
  unfold writeAt
  rw [show A.length - (A ++ old ++ B).length = 0 by simp only [List.length_append]; omega, List.replicate_zero, List.append_nil,
    List.append_assoc A old, List.take_left, ← h, ← List.length_append, ← List.append_assoc A old, List.drop_left]

/-- Cutting off and filling up again. -/
theorem setLen_rewrite (Q R N T : Bytes) :
    writeAt (writeAt (fileSetLen (Q ++ R) (Q.length + N.length + T.length)) Q.length N) (Q.length + N.length) T
      = Q ++ N ++ T := by
  rw [writeAt_append]
  apply List.ext_getElem?
  intro i
  rw [writeAt_get, fileSetLen_get, fileSetLen_length]
  grind

/-! ### The operations -/

theorem Sees.flush_replay {F0 m s F c} (h : Sees F0 m s F c) : s.flushBuf.trace.foldl Op.apply F0 = s.flushBuf.file := by
  rw [flushBuf_trace, flushBuf_file]
  by_cases hb : s.buf = []
  · rw [if_pos hb, if_pos hb]; exact h.replay
  · rw [if_neg hb, if_neg hb, List.foldl_append, h.replay]; rfl

theorem W.bind_ok {α β} {m : W α} {f : α → W β} {e s a s'} (h : m e s = (.ok a, s')) : (m >>= f) e s = f a e s' := by
  show W.bind m f e s = _
  rw [W.bind, h]

theorem E.w_ok {α} {m : E α} {e a} (h : m e = .ok a) (s) : E.w m e s = (.ok a, s) := by rw [E.w, h]

theorem Sees.clean {F0 m s F c} (h : Sees F0 m s F c) : Sees F0 m s.flushBuf F c ∧ s.flushBuf.buf = [] ∧ s.flushBuf.file = F := by
  refine ⟨⟨?_, ?_, ?_, ?_⟩, rfl, h.file⟩
  · rw [flushBuf_flushBuf]; exact h.file
  · rw [flushBuf_cur, flushBuf_buf, List.length_nil, Nat.add_zero]; exact h.cur
  · rw [flushBuf_flushBuf]; exact h.low
  · exact h.flush_replay

/-- The cursor of a state with an empty buffer can be moved. -/
theorem Sees.move {F0 m s F c} (h : Sees F0 m s F c) (hb : s.buf = []) (n : Nat) : Sees F0 m { s with cur := n } F n := by
  have h1 := h.file
  have h2 := h.low
  rw [flushBuf_trace, if_pos hb] at h2
  rw [flushBuf_file, if_pos hb] at h1
  refine ⟨?_, ?_, ?_, h.replay⟩
  · rw [flushBuf_file, if_pos hb]; exact h1
  · simp [hb]
  · rw [flushBuf_trace, if_pos hb]; exact h2

theorem wSeekStart_sees {F0 m s F c e n} (h : Sees F0 m s F c) (hn : n ≤ e.maxPos) :
    ∃ s', wSeekStart n e s = (.ok (), s') ∧ Sees F0 m s' F n ∧ s'.buf = [] ∧ s'.file = F := by
  obtain ⟨h1, h2, h3⟩ := h.clean
  refine ⟨{ s.flushBuf with cur := n }, ?_, h1.move h2 n, h2, h3⟩
  rw [wSeekStart]
  exact if_pos hn

theorem wSeekCur_sees {F0 m s F c e n} (h : Sees F0 m s F c) (hn : c + n ≤ e.maxPos) :
    ∃ s', wSeekCur n e s = (.ok (), s') ∧ Sees F0 m s' F (c + n) ∧ s'.buf = [] := by
  obtain ⟨h1, h2, h3⟩ := h.clean
  have hc : s.flushBuf.cur = c := by have := h1.cur; rw [h2] at this; simpa using this
  refine ⟨{ s.flushBuf with cur := c + n }, ?_, h1.move h2 _, h2⟩
  rw [wSeekCur]
  simp only [hc]
  exact if_pos hn

theorem wFlush_sees {F0 m s F c e} (h : Sees F0 m s F c) :
    ∃ s', wFlush e s = (.ok (), s') ∧ Sees F0 m s' F c ∧ s'.buf = [] ∧ s'.file = F :=
  ⟨s.flushBuf, rfl, h.clean⟩

/-- A system call with an empty buffer. -/
theorem sysWrite_sees {F0 m s F c} (h : Sees F0 m s F c) (hb : s.buf = []) (b : Bytes) (hm : m ≤ c) (hc : c ≤ F.length) :
    Sees F0 m (s.sysWrite b) (writeAt F c b) (c + b.length) := by
  have h1 := h.file
  have h2 := h.low
  have h4 := h.cur
  rw [flushBuf_trace, if_pos hb] at h2
  rw [flushBuf_file, if_pos hb] at h1
  rw [hb, List.length_nil, Nat.add_zero] at h4
  unfold WSt.sysWrite
  cases b with
  | nil => simp only [List.isEmpty_nil, if_true]; rw [writeAt_nil F c hc]; exact h
  | cons x b =>
    simp only [List.isEmpty_cons, Bool.false_eq_true, if_false]
    refine ⟨?_, ?_, ?_, ?_⟩
    · rw [flushBuf_file, if_pos hb, h1, h4]
    · simp only [hb, h4, List.length_nil, Nat.add_zero]
    · rw [flushBuf_trace, if_pos hb]
      intro op hop
      rw [List.mem_append, List.mem_singleton] at hop
      rcases hop with hop | rfl
      · exact h2 op hop
      · simp only [Op.lo, h4]; exact hm
    · rw [List.foldl_append, h.replay, List.foldl_cons, List.foldl_nil]
      rfl

/-- Appending to the buffer. -/
theorem buffer_sees {F0 m s F c} (h : Sees F0 m s F c) (b : Bytes) (hm : m ≤ c) (hlow : s.buf ≠ [] → m ≤ s.cur) (hc : c ≤ F.length) :
    Sees F0 m { s with buf := s.buf ++ b } (writeAt F c b) (c + b.length) := by
  have h1 := h.file
  have h2 := h.low
  have h4 := h.cur
  cases b with
  | nil => simp only [List.append_nil]; rw [writeAt_nil F c hc]; exact h
  | cons x b =>
    have hne : ({ s with buf := s.buf ++ x :: b } : WSt).buf ≠ [] := by simp
    by_cases hb : s.buf = []
    · rw [flushBuf_trace, if_pos hb] at h2
      rw [flushBuf_file, if_pos hb] at h1
      rw [hb, List.length_nil, Nat.add_zero] at h4
      refine ⟨?_, ?_, ?_, h.replay⟩
      · rw [flushBuf_file, if_neg hne]; simp only [hb, List.nil_append, h1, h4]
      · simp only [hb, h4, List.nil_append]
      · rw [flushBuf_trace, if_neg hne]
        intro op hop
        rw [List.mem_append, List.mem_singleton] at hop
        rcases hop with hop | rfl
        · exact h2 op hop
        · simp only [Op.lo, h4]; exact hm
    · rw [flushBuf_trace, if_neg hb] at h2
      rw [flushBuf_file, if_neg hb] at h1
      have hf : writeAt s.file s.cur (s.buf ++ x :: b) = writeAt F c (x :: b) := by
        rw [← writeAt_append, h1, h4]
      refine ⟨?_, ?_, ?_, h.replay⟩
      · rw [flushBuf_file, if_neg hne]; exact hf
      · simp only [List.length_append]; omega
      · rw [flushBuf_trace, if_neg hne]
        intro op hop
        rw [List.mem_append, List.mem_singleton] at hop
        rcases hop with hop | rfl
        · exact h2 op (by simp [hop])
        · simp only [Op.lo]; exact hlow hb

/-- While the buffer is not empty, its start is not in front of `m`. -/
theorem Sees.low_cur {F0 m s F c} (h : Sees F0 m s F c) (hb : s.buf ≠ []) : m ≤ s.cur := by
  have := h.low
  rw [flushBuf_trace, if_neg hb] at this
  exact this (.write s.cur s.buf) (by simp)

theorem wWriteAll_sees {F0 m s F c e} (h : Sees F0 m s F c) (b : Bytes) (hm : m ≤ c) (hc : c ≤ F.length) :
    ∃ s', wWriteAll b e s = (.ok (), s') ∧ Sees F0 m s' (writeAt F c b) (c + b.length) := by
  unfold wWriteAll
  by_cases h1 : b.length < e.cap - s.buf.length
  · rw [if_pos h1]
    exact ⟨_, rfl, buffer_sees h b hm h.low_cur hc⟩
  · rw [if_neg h1]
    by_cases h2 : b.length > e.cap - s.buf.length
    · simp only [if_pos h2]
      obtain ⟨g1, g2, g3⟩ := h.clean
      by_cases h3 : b.length ≥ e.cap
      · rw [if_pos h3]
        exact ⟨_, rfl, sysWrite_sees g1 g2 b hm hc⟩
      · rw [if_neg h3]
        exact ⟨_, rfl, buffer_sees g1 b hm g1.low_cur hc⟩
    · simp only [if_neg h2]
      by_cases h3 : b.length ≥ e.cap
      · rw [if_pos h3]
        by_cases hb : s.buf = []
        · exact ⟨_, rfl, sysWrite_sees h hb b hm hc⟩
        · have : 0 < s.buf.length := List.length_pos_iff.mpr hb
          have hb0 : b = [] := List.length_eq_zero_iff.mp (by omega)
          subst hb0
          refine ⟨_, rfl, ?_⟩
          rw [writeAt_nil F c hc]
          exact h
      · rw [if_neg h3]
        exact ⟨_, rfl, buffer_sees h b hm h.low_cur hc⟩

theorem wSetLen_sees {F0 m s F c e n} (h : Sees F0 m s F c) (hm : m ≤ n) (hc : c ≤ n) (hn : n ≤ e.maxPos) :
    ∃ s', wSetLen n e s = (.ok (), s') ∧ Sees F0 m s' (fileSetLen F n) c := by
  rw [wSetLen, if_pos hn]
  refine ⟨_, rfl, ?_, h.cur, ?_, ?_⟩
  · have h1 := h.file
    have h4 := h.cur
    rw [flushBuf_file] at h1 ⊢
    by_cases hb : s.buf = []
    · rw [if_pos hb] at h1 ⊢; rw [h1]
    · rw [if_neg hb] at h1 ⊢; rw [setLen_writeAt _ _ _ _ (show s.cur + s.buf.length ≤ n by omega), h1]
  · have h2 := h.low
    rw [flushBuf_trace] at h2 ⊢
    intro op hop
    by_cases hb : s.buf = []
    · rw [if_pos hb] at h2 hop
      rw [List.mem_append, List.mem_singleton] at hop
      rcases hop with hop | rfl
      · exact h2 op hop
      · exact hm
    · rw [if_neg hb] at h2 hop
      rw [List.mem_append, List.mem_append, List.mem_singleton, List.mem_singleton] at hop
      rcases hop with (hop | rfl) | rfl
      · exact h2 op (by simp [hop])
      · exact hm
      · exact h2 _ (by simp)
  · rw [List.foldl_append, h.replay]; rfl

theorem wAll_nil {α} (f : α → W Unit) (e s) : wAll f [] e s = (.ok (), s) := rfl
theorem wAll_cons_ok {α} {f : α → W Unit} {x xs e s s'} (h : f x e s = (.ok (), s')) :
    wAll f (x :: xs) e s = wAll f xs e s' := by
  rw [wAll]; exact W.bind_ok h

theorem wAll_append_ok {α} {f : α → W Unit} {xs ys e s s'} (h : wAll f xs e s = (.ok (), s')) :
    wAll f (xs ++ ys) e s = wAll f ys e s' := by
  induction xs generalizing s with
  | nil => rw [wAll_nil] at h; cases h; rfl
  | cons x xs ih =>
    rw [wAll] at h
    rw [List.cons_append, wAll]
    show W.bind _ _ _ _ = _
    have h' : W.bind (f x) (fun _ => wAll f xs) e s = (.ok (), s') := h
    rw [W.bind] at h' ⊢
    cases hx : f x e s with
    | mk o s1 =>
      rw [hx] at h'
      cases o with
      | ok a => exact ih h'
      | err k => simp at h'
      | panic => simp at h'
      | fuel => simp at h'

theorem wAll_write_sees {F0 m e} : ∀ (cs : List Bytes) {s F c}, Sees F0 m s F c → m ≤ c → c ≤ F.length →
    ∃ s', wAll wWriteAll cs e s = (.ok (), s') ∧ Sees F0 m s' (writeAt F c cs.flatten) (c + cs.flatten.length) := by
  intro cs
  induction cs with
  | nil =>
    intro s F c h hm hc
    refine ⟨s, rfl, ?_⟩
    rw [List.flatten_nil, writeAt_nil F c hc]; exact h
  | cons b cs ih =>
    intro s F c h hm hc
    obtain ⟨s1, h1, h2⟩ := wWriteAll_sees (e := e) h b hm hc
    obtain ⟨s2, h3, h4⟩ := ih h2 (by omega) (by rw [writeAt_length]; omega)
    refine ⟨s2, by rw [wAll_cons_ok h1, h3], ?_⟩
    rw [writeAt_append] at h4
    rw [List.flatten_cons, List.length_append, ← Nat.add_assoc]; exact h4

theorem wEmit_sees {F0 m s F c e} {w : Wr Unit} {b : Bytes} (hw : Emits w b) (h : Sees F0 m s F c) (hm : m ≤ c)
    (hc : c ≤ F.length) :
    ∃ s', wEmit w e s = (.ok (), s') ∧ Sees F0 m s' (writeAt F c b) (c + b.length) := by
  obtain ⟨cs, h1, h2⟩ := hw e
  obtain ⟨s', h3, h4⟩ := wAll_write_sees (e := e) cs h hm hc
  refine ⟨s', ?_, h2 ▸ h4⟩
  rw [wEmit, h1, h3]

/-- The end of writing: cutting or extending the file, the new atoms, the moved data. -/
theorem finish_sees {F0 m s e c} {w : Wr Unit} (Q R N T : Bytes) (hw : Emits w N) (h : Sees F0 m s (Q ++ R) c)
    (hm : m ≤ Q.length) (hc : c ≤ Q.length) (hn : (Q ++ N ++ T).length ≤ e.maxPos) :
    ∃ s', (do wSetLen (Q ++ N ++ T).length; wSeekStart Q.length; wEmit w; wSeekStart (Q ++ N).length; wWriteAll T; wFlush : W Unit) e s
        = (.ok (), s') ∧ Sees F0 m s' (Q ++ N ++ T) (Q ++ N ++ T).length ∧ s'.buf = [] := by
  simp only [List.length_append] at hn ⊢
  obtain ⟨s1, g1, k1⟩ := wSetLen_sees (e := e) (n := Q.length + N.length + T.length) h (by omega) (by omega) (by omega)
  obtain ⟨s2, g2, k2, -, -⟩ := wSeekStart_sees (e := e) (n := Q.length) k1 (by omega)
  obtain ⟨s3, g3, k3⟩ := wEmit_sees (e := e) hw k2 hm (by rw [fileSetLen_length]; omega)
  obtain ⟨s4, g4, k4, -, -⟩ := wSeekStart_sees (e := e) (n := Q.length + N.length) k3 (by omega)
  obtain ⟨s5, g5, k5⟩ := wWriteAll_sees (e := e) k4 T (by omega) (by rw [writeAt_length, fileSetLen_length]; omega)
  rw [setLen_rewrite] at k5
  obtain ⟨s6, g6, k6, hb, -⟩ := wFlush_sees (e := e) k5
  refine ⟨s6, ?_, k6, hb⟩
  rw [W.bind_ok g1, W.bind_ok g2, W.bind_ok g3, W.bind_ok g4, W.bind_ok g5]
  exact g6

end Mp4
