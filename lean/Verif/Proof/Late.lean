import Verif.Proof.NoPanic
import Verif.Proof.Patch
import Verif.Proof.Provenance
import Verif.Spec.Late
/-
What a failed write may have changed, for arbitrary input: entries of chunk offset tables.
-/
namespace Mp4
open Spec

/-! ### Writes that stay within some positions -/

/-- A write within some positions. -/
def Inner (T : Nat → Prop) (op : Op) : Prop := ∃ off b, op = .write off b ∧ b ≠ [] ∧ ∀ j < b.length, T (off + j)

/-- All bytes that have been or will be written are at positions in `T`. -/
structure Within (T : Nat → Prop) (F : Bytes) (s : WSt) : Prop where
  ops : ∀ op ∈ s.trace, Inner T op
  replay : s.trace.foldl Op.apply F = s.file
  buf : ∀ j < s.buf.length, T (s.cur + j)

/-- What holds after success, and otherwise. -/
def HoldsW {α} (e : Env) (I : WSt → Prop) (m : W α) (J : α → WSt → Prop) (K : WSt → Prop) : Prop :=
  ∀ s, I s → match m e s with
    | (.ok a, s') => J a s'
    | (_, s') => K s'

theorem HoldsW.bind {α β e I J K L} {m : W α} {f : α → W β} (h1 : HoldsW e I m J K) (h2 : ∀ a, HoldsW e (J a) (f a) L K) :
    HoldsW e I (m >>= f) L K := by
  intro s hs
  have h := h1 s hs
  rw [W.bind_apply]
  cases hr : m e s with
  | mk o s' =>
    rw [hr] at h
    cases o with
    | ok a => exact h2 a s' h
    | err k => exact h
    | panic => exact h
    | fuel => exact h

theorem HoldsW.pure {α e I K} (a : α) {J : α → WSt → Prop} (h : ∀ s, I s → J a s) : HoldsW e I (pure a : W α) J K := fun s hs => h s hs

theorem HoldsW.ofE {α e I K} (m : E α) (h : ∀ s, I s → K s) : HoldsW e I m.w (fun a s => m e = .ok a ∧ I s) K := fun s hs => by
  unfold E.w
  cases hm : m e with
  | ok a => exact ⟨rfl, hs⟩
  | err k => exact h s hs
  | panic => exact h s hs
  | fuel => exact h s hs

theorem within_sysWrite {T F} {s : WSt} {b : Bytes} (h : Within T F s) (hb : ∀ j < b.length, T (s.cur + j)) :
    (∀ op ∈ (s.sysWrite b).trace, Inner T op) ∧
    (s.sysWrite b).trace.foldl Op.apply F = (s.sysWrite b).file := by
  unfold WSt.sysWrite
  split
  · exact ⟨h.ops, h.replay⟩
  · rename_i hne
    refine ⟨fun op ho => ?_, ?_⟩
    · rcases List.mem_append.mp ho with ho | ho
      · exact h.ops op ho
      · rw [List.mem_singleton.mp ho]; exact ⟨_, _, rfl, fun h0 => hne (by rw [h0]; rfl), hb⟩
    · dsimp only
      rw [List.foldl_append, h.replay]; rfl

theorem within_flush {T F} {s : WSt} (h : Within T F s) : Within T F s.flushBuf := by
  obtain ⟨h1, h2⟩ := within_sysWrite h h.buf
  exact ⟨h1, h2, by simp [WSt.flushBuf]⟩

theorem Within.cur {T F} {s : WSt} (h : Within T F s) (hb : s.buf = []) (c : Nat) : Within T F { s with cur := c } :=
  ⟨h.ops, h.replay, by dsimp only; rw [hb]; simp⟩

/-- Nothing is in the buffer. -/
def WithinE (T : Nat → Prop) (F : Bytes) (s : WSt) : Prop := Within T F s ∧ s.buf = []

/-- The next byte goes to position `c`. -/
def WithinAt (T : Nat → Prop) (F : Bytes) (c : Nat) (s : WSt) : Prop := Within T F s ∧ s.cur + s.buf.length = c

theorem wSeekStart_within {e T F n} : HoldsW e (Within T F) (wSeekStart n) (fun _ => WithinAt T F n) (Within T F) := fun s hs => by
  have h := within_flush hs
  unfold wSeekStart
  by_cases hn : n ≤ e.maxPos
  · simp only [if_pos hn]
    exact ⟨h.cur rfl n, by show n + 0 = n; rfl⟩
  · simp only [if_neg hn]
    exact h

theorem wWriteAll_within {e T F c} {b : Bytes} (hb : ∀ j < b.length, T (c + j)) :
    HoldsW e (WithinAt T F c) (wWriteAll b) (fun _ => WithinAt T F (c + b.length)) (Within T F) := fun s hs => by
  obtain ⟨hs, hc⟩ := hs
  have happ : ∀ s : WSt, Within T F s → s.cur + s.buf.length = c → WithinAt T F (c + b.length) { s with buf := s.buf ++ b } := by
    intro s h1 h2
    refine ⟨⟨h1.ops, h1.replay, fun j hj => ?_⟩, ?_⟩
    · dsimp only at hj ⊢
      rw [List.length_append] at hj
      by_cases hlt : j < s.buf.length
      · exact h1.buf j hlt
      · have := hb (j - s.buf.length) (by omega)
        rwa [show c + (j - s.buf.length) = s.cur + j by omega] at this
    · dsimp only; rw [List.length_append]; omega
  unfold wWriteAll
  split <;> rename_i h1 <;> split at h1
  · cases h1
    exact happ s hs hc
  · dsimp only at h1
    have key : ∃ s1, s1 = (if b.length > e.cap - s.buf.length then s.flushBuf else s) ∧ Within T F s1 ∧ s1.cur + s1.buf.length = c ∧
        (b.length ≥ e.cap → b = [] ∨ s1.buf = []) := by
      refine ⟨_, rfl, ?_⟩
      split
      · exact ⟨within_flush hs, by rw [flushBuf_cur, flushBuf_buf]; exact hc, fun _ => .inr rfl⟩
      · refine ⟨hs, hc, fun hge => ?_⟩
        by_cases h0 : b.length = 0
        · exact .inl (List.length_eq_zero_iff.mp h0)
        · exact .inr (List.length_eq_zero_iff.mp (by omega))
    obtain ⟨s1, e1, w1, c1, b1⟩ := key
    rw [← e1] at h1
    split at h1
    · rename_i hge
      have hb1 := b1 hge
      cases h1
      rcases hb1 with rfl | hb1
      · exact ⟨w1, c1⟩
      rw [hb1] at c1
      have c1 : s1.cur = c := c1
      obtain ⟨k1, k2⟩ := within_sysWrite w1 (b := b) (by rw [c1]; exact hb)
      refine ⟨⟨k1, k2, ?_⟩, ?_⟩
      · rw [sysWrite_buf, hb1]; simp
      · rw [sysWrite_buf, sysWrite_cur, hb1, c1]; rfl
    · cases h1
      exact happ s1 w1 c1
  · cases h1; rename_i hx; exact (hx () rfl).elim
  · dsimp only at h1
    split at h1 <;> · cases h1; rename_i hx; exact (hx () rfl).elim

theorem toBe_len (w n : Nat) : (toBe w n).length = w := by
  rw [toBe_length]

/-- Writing the entries of a table. -/
theorem wEntries_within {e T F w d} : ∀ (l : List Nat) (c : Nat), (∀ j < w * l.length, T (c + j)) →
    HoldsW e (WithinAt T F c) (wAll (fun co => do
      let n ← (addI (asI64 co) d).w
      wWriteAll (toBe w (asU64 n))) l) (fun _ => Within T F) (Within T F)
  | [], c, _ => .pure _ fun _ h => h.1
  | x :: l, c, hT => by
    have hw : w * (x :: l).length = w + w * l.length := by rw [List.length_cons, Nat.mul_succ, Nat.add_comm]
    rw [hw] at hT
    rw [wAll]
    refine .bind (.bind (.ofE _ fun _ h => h.1) fun n => ?_) fun _ => wEntries_within l (c + w) fun j hj => ?_
    · intro s hs
      have h := wWriteAll_within (e := e) (F := F) (b := toBe w (asU64 n)) (c := c) (T := T)
        (fun j hj => hT j (by rw [toBe_len] at hj; omega)) s hs.2
      rw [toBe_len] at h
      exact h
    · have := hT (w + j) (by omega)
      rwa [← Nat.add_assoc] at this

theorem readTable_inv {e F} (w : Nat) (hw : 0 < w) : ∀ n p l q, readTable w n e F p = .ok (l, q) → l.length = n ∧
    (n = 0 ∨ p + w * n ≤ F.length)
  | 0, p, l, q, h => by
    obtain ⟨rfl, -⟩ := P.pure_inv h
    exact ⟨rfl, .inl rfl⟩
  | n+1, p, l, q, h => by
    rw [readTable] at h
    obtain ⟨b, q1, h1, h⟩ := P.bind_inv h
    obtain ⟨r, q2, h2, h⟩ := P.bind_inv h
    obtain ⟨rfl, -⟩ := P.pure_inv h
    obtain ⟨hb, rfl, hl⟩ := readExact_inv h1
    obtain ⟨i1, i2⟩ := readTable_inv w hw n _ _ _ h2
    refine ⟨by rw [List.length_cons, i1], .inr ?_⟩
    rw [Nat.mul_succ]
    have hle : p + w ≤ F.length := hl.resolve_left (by omega)
    rcases i2 with rfl | i2
    · omega
    · omega

theorem parseTable_inv {e F p w q tp l} {s : Size} (hw : w = 4 ∨ w = 8) (hs : s.len < 2^64) (h : parseTable w s e F p = .ok ((tp, l), q)) :
    tp = p + 8 ∧ (l ≠ [] → tp + w * l.length ≤ F.length) ∧ s.headLen + 8 + w * l.length = s.len := by
  unfold parseTable at h
  obtain ⟨⟨v, fl⟩, q1, h1, h⟩ := P.bind_inv h
  unfold parseFullHead at h1
  obtain ⟨v', q2, h2, h1⟩ := P.bind_inv h1
  obtain ⟨fl', q3, h3, h1⟩ := P.bind_inv h1
  obtain ⟨-, rfl⟩ := P.pure_inv h1
  unfold readU8 at h2
  obtain ⟨b2, q4, h4, h2⟩ := P.bind_inv h2
  obtain ⟨-, rfl⟩ := P.pure_inv h2
  obtain ⟨-, rfl, -⟩ := readExact_inv h4
  obtain ⟨-, rfl, -⟩ := readExact_inv h3
  dsimp only at h
  rw [P.if_apply] at h
  split at h
  · obtain ⟨n, q5, h5, h⟩ := P.bind_inv h
    unfold readU32 at h5
    obtain ⟨b5, q6, h6, h5⟩ := P.bind_inv h5
    obtain ⟨hn, rfl⟩ := P.pure_inv h5
    obtain ⟨hb5, rfl, hl5⟩ := readExact_inv h6
    obtain ⟨c, q7, h7, h⟩ := P.bind_inv h
    obtain ⟨h7', rfl⟩ := E.p_inv h7
    rw [P.if_apply] at h
    split at h
    · exact absurd h P.fail_inv
    · rename_i hc
      obtain ⟨t, q8, h8, h⟩ := P.bind_inv h
      simp only [tellP, Out.ok.injEq, Prod.mk.injEq] at h8
      obtain ⟨rfl, rfl⟩ := h8
      obtain ⟨l', q9, h9, h⟩ := P.bind_inv h
      obtain ⟨hx, -⟩ := P.pure_inv h
      simp only [Prod.mk.injEq] at hx
      obtain ⟨rfl, rfl⟩ := hx
      obtain ⟨k1, k2⟩ := readTable_inv w (by omega) _ _ _ _ h9
      have hlen5 : b5.length ≤ 4 := by rw [hb5, List.length_take]; omega
      have hn32 : n < 2^32 := by
        rw [← hn]
        refine Nat.lt_of_lt_of_le (beNat_lt_pow _) ?_
        have : (256 : Nat) ^ b5.length ≤ 256 ^ 4 := Nat.pow_le_pow_right (by decide) hlen5
        omega
      refine ⟨by omega, fun hne => ?_, ?_⟩
      · rw [k1]
        rcases k2 with rfl | k2
        · exact absurd (List.length_eq_zero_iff.mp k1) hne
        · omega
      · unfold Size.contentLen at h7'
        have hh : s.headLen = if s.ext then 16 else 8 := rfl
        rw [← hh] at h7'
        have hh2 : s.headLen ≤ 16 := by rw [hh]; split <;> omega
        rw [k1]
        have hc : 8 + w * n = c := Decidable.not_not.mp hc
        rcases subU_cases h7' with ⟨a1, a2⟩ | ⟨a1, a2⟩
        · omega
        · have : w * n < 2^36 := by
            rcases hw with rfl | rfl <;> omega
          omega
  · exact absurd h P.fail_inv

/-- Writes within some positions of the file leave its length and everything else. -/
theorem write_inner {T : Nat → Prop} {F : Bytes} (hF : ∀ i, T i → i < F.length) {G : Bytes} (hG : G.length = F.length ∧ ∀ i, ¬ T i → G[i]? = F[i]?)
    {off : Nat} {b : Bytes} (hb : b ≠ []) (hT : ∀ j < b.length, T (off + j)) :
    (writeAt G off b).length = F.length ∧ ∀ i, ¬ T i → (writeAt G off b)[i]? = F[i]? := by
  have hpos : 0 < b.length := List.length_pos_iff.mpr hb
  have hle : off + b.length ≤ F.length := by
    have := hF _ (hT (b.length - 1) (by omega))
    omega
  refine ⟨by rw [writeAt_length, hG.1]; omega, fun i hi => ?_⟩
  rw [writeAt_get]
  by_cases h1 : i < off
  · rw [if_pos h1, if_pos (by omega)]; exact hG.2 i hi
  · rw [if_neg h1]
    by_cases h2 : i < off + b.length
    · have := hT (i - off) (by omega)
      rw [show off + (i - off) = i by omega] at this
      exact absurd this hi
    · rw [if_neg h2]; exact hG.2 i hi

theorem ops_inner {T : Nat → Prop} {F : Bytes} (hF : ∀ i, T i → i < F.length) : ∀ (ops : List Op) (G : Bytes),
    (G.length = F.length ∧ ∀ i, ¬ T i → G[i]? = F[i]?) → (∀ op ∈ ops, Inner T op) →
    (ops.foldl Op.apply G).length = F.length ∧ ∀ i, ¬ T i → (ops.foldl Op.apply G)[i]? = F[i]?
  | [], G, hG, _ => hG
  | op :: ops, G, hG, h => by
    obtain ⟨off, b, rfl, hb, hT⟩ := h op (by simp)
    exact ops_inner hF ops _ (write_inner hF hG hb hT) fun o ho => h o (by simp [ho])

theorem Within.only {T : Nat → Prop} {F : Bytes} (hF : ∀ i, T i → i < F.length) {s : WSt} (h : Within T F s) :
    s.file.length = F.length ∧ ∀ i, ¬ T i → s.file[i]? = F[i]? := by
  rw [← h.replay]
  exact ops_inner hF _ _ ⟨rfl, fun _ _ => rfl⟩ h.ops

/-- The entries of a table. -/
theorem patchTable_within {e F T w d} {a : AtomBounds} (hw : w = 4 ∨ w = 8) (hs : a.size.len < 2^64) (hp : a.pos + 16 < 2^64)
    (hF : ∀ i, T i → i < F.length)
    (hT : ∀ i, a.pos + 16 ≤ i → i < a.pos + a.size.len → i < F.length → T i) :
    HoldsW e (WithinE T F) (patchTable w d a) (fun _ => WithinE T F) (Within T F) := by
  have h16 : 8 ≤ a.size.headLen ∧ a.size.headLen ≤ 16 := by unfold Size.headLen; split <;> omega
  unfold patchTable
  refine .bind (.ofE _ fun _ h => h.1) fun p => ?_
  refine .bind (J := fun x s => WithinE T F s ∧ ∀ j < w * x.2.length, T (x.1 + j)) (K := Within T F) ?_ ?_
  · rintro s ⟨hpos, hE⟩
    have hpp : p = a.pos + a.size.headLen := by
      have := addU_inv hpos
      rw [Nat.mod_eq_of_lt (by omega)] at this
      exact this
    have hl := (hE.1.only hF).1
    unfold wRead
    cases hr : (do seekStart p; parseTable w a.size) e s.file 0 with
    | ok x =>
      obtain ⟨⟨tp, l⟩, q⟩ := x
      obtain ⟨_, q1, h1, h2⟩ := P.bind_inv hr
      have hq1 : q1 = p := by
        unfold seekStart at h1
        split at h1
        · simp only [Out.ok.injEq, Prod.mk.injEq] at h1; exact h1.2.symm
        · simp at h1
      subst hq1
      obtain ⟨k1, k2, k3⟩ := parseTable_inv hw hs h2
      refine ⟨⟨hE.1.cur hE.2 _, hE.2⟩, fun j hj => ?_⟩
      dsimp only at hj ⊢
      have hne : l ≠ [] := by
        rintro rfl
        simp at hj
      have k2 := k2 hne
      exact hT _ (by omega) (by omega) (by omega)
    | err k => exact hE.1.cur hE.2 _
    | panic => exact hE.1.cur hE.2 _
    | fuel => exact hE.1.cur hE.2 _
  · rintro ⟨tp, l⟩
    dsimp only
    intro s hs'
    refine HoldsW.bind (I := fun s => WithinE T F s) (J := fun _ => WithinAt T F tp) (K := Within T F) ?_ (fun _ => ?_) s hs'.1
    · exact fun s h => wSeekStart_within s h.1
    · refine .bind (wEntries_within l tp hs'.2) fun _ => ?_
      intro s h
      exact ⟨within_flush h, rfl⟩

theorem wOpt_within {α e T F} {f : α → W Unit} : ∀ {o : Option α},
    (∀ a, o = some a → HoldsW e (WithinE T F) (f a) (fun _ => WithinE T F) (Within T F)) →
    HoldsW e (WithinE T F) (wOpt f o) (fun _ => WithinE T F) (Within T F)
  | some a, h => h a rfl
  | none, _ => .pure _ fun _ h => h

theorem wAll_within {α e T F} {f : α → W Unit} : ∀ l : List α,
    (∀ a ∈ l, HoldsW e (WithinE T F) (f a) (fun _ => WithinE T F) (Within T F)) →
    HoldsW e (WithinE T F) (wAll f l) (fun _ => WithinE T F) (Within T F)
  | [], _ => .pure _ fun _ h => h
  | a :: l, h => .bind (h a (by simp)) fun _ => wAll_within l fun x hx => h x (by simp [hx])

/-! ### The tables that have been found -/

theorem headB_claimed {F fc} {a : AtomBounds} (h : HeadB F fc a) : bytesAt F (a.pos + 4) 4 = fc.bytes ∧ claimedLen F a.pos = a.size.len := by
  obtain ⟨h1, h2, h3⟩ := h
  obtain ⟨A, B, hF, hA⟩ := h1.elim
  dsimp only at hF hA h2 h3
  unfold claimedLen bytesAt
  simp only [← List.drop_drop]
  rw [hF, List.append_assoc, ← hA, List.drop_left, num_eq]
  cases he : a.size.ext with
  | true =>
    rw [he] at h2
    refine ⟨rfl, ?_⟩
    rw [show beNat ((headBytes true fc a.size.len ++ B).take 4) = 1 from rfl, if_pos rfl, num_eq]
    exact beNat_be64 _ h2
  | false =>
    rw [he] at h2
    refine ⟨rfl, ?_⟩
    have h3 := h3 he
    have hb : beNat ((headBytes false fc a.size.len ++ B).take 4) = a.size.len := beNat_be32 _ h2
    rw [hb, if_neg (by omega)]

theorem tableByte_lt {F : Bytes} : ∀ i, TableByte F i → i < F.length := fun _ ⟨_, _, _, _, h⟩ => h

theorem found_within {e F d} {fc : Fourcc} {w : Nat} {a : AtomBounds} (hF : F.length < 2^63)
    (hfc : fc = cc 's' 't' 'c' 'o' ∨ fc = cc 'c' 'o' '6' '4') (hw : w = 4 ∨ w = 8) (h : HeadB F fc a) :
    HoldsW e (WithinE (TableByte F) F) (patchTable w d a) (fun _ => WithinE (TableByte F) F) (Within (TableByte F) F) := by
  obtain ⟨h1, h2⟩ := headB_claimed h
  have hle := h.le
  have hsz := h.2.1
  dsimp only at hle hsz
  refine patchTable_within hw ?_ (by omega) tableByte_lt fun i i1 i2 i3 => ⟨a.pos, ?_, i1, ?_, i3⟩
  · split at hsz <;> omega
  · rw [h1]
    rcases hfc with rfl | rfl
    · exact .inl rfl
    · exact .inr rfl
  · rw [h2]; exact i2

theorem stbls_within {e F d} {m : MoovBounds} (hF : F.length < 2^63) (h : FoundMoovB F m) :
    HoldsW e (WithinE (TableByte F) F) (wAll (patchStbl d) (stblAtoms m)) (fun _ => WithinE (TableByte F) F) (Within (TableByte F) F) := by
  refine wAll_within _ fun a ha => ?_
  unfold stblAtoms at ha
  obtain ⟨t, ht, hx⟩ := List.mem_filterMap.mp ha
  have hs := h.2.2 t ht
  have hst : FoundStbl F a := by
    cases t with
    | none => simp at hx
    | some t =>
      cases t with
      | none => simp at hx
      | some t =>
        simp only [Option.bind_some, id_eq] at hx
        subst hx
        exact hs
  unfold patchStbl
  refine .bind (wOpt_within fun b hb => ?_) fun _ => wOpt_within fun b hb => ?_
  · have := hst.1
    rw [hb] at this
    exact found_within hF (.inl rfl) (.inl rfl) this
  · have := hst.2
    rw [hb] at this
    exact found_within hF (.inr rfl) (.inr rfl) this

theorem writePhase_split {mp : Nat} {m : MoovBounds} {p ol moved atoms} :
    writePhase mp m p ol moved atoms = (if mp > m.bounds.pos then wAll (patchStbl p.lenDiff) (stblAtoms m) else pure ()) >>=
      fun _ => writePhase 0 m p ol moved atoms := by
  unfold writePhase
  by_cases h : mp > m.bounds.pos
  · simp only [if_pos h, if_neg (Nat.not_lt_zero _)]
  · simp only [if_neg h, if_neg (Nat.not_lt_zero _)]
    rfl

end Mp4
