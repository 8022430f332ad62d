import Verif.Proof.Writer
import Verif.Proof.Find
/-
Overwriting chunk offset tables and size fields in place.
-/
namespace Mp4
open Spec

theorem asI64_lt {n : Nat} (h : n < 2^63) : asI64 n = n := asI64_small h

theorem addI_ok {a b : Int} (e : Env) (h1 : -2^63 ≤ a + b) (h2 : a + b < 2^63) : addI a b e = .ok (a + b) := by
  rw [addI, if_pos ⟨h1, h2⟩]

theorem asU64_nat (n : Nat) (h : n < 2^64) : asU64 n = n := by
  unfold asU64; omega

/-! ### Size fields -/

theorem be32_asU32 (n : Nat) : be32 (asU32 n) = be32 n := by
  have : asU32 n = n % 2^32 := by unfold asU32; omega
  rw [this, ← toBe_four, ← toBe_four]
  have h4 : ∀ k n, toBe k (n % 256 ^ k) = toBe k n := by
    intro k
    induction k with
    | zero => intro n; rfl
    | succ k ih =>
      intro n
      rw [toBe, toBe]
      have h1 : n % 256 ^ (k + 1) / 256 = n / 256 % 256 ^ k := by
        rw [Nat.pow_succ, Nat.mul_comm, Nat.mod_mul_right_div_self]
      have h2 : n % 256 ^ (k + 1) % 256 = n % 256 := by
        rw [Nat.pow_succ, Nat.mul_comm, Nat.mod_mul_right_mod]
      rw [h1, h2, ih]
  exact h4 4 n

/-- Overwriting the size of an atom by that of an atom whose content differs in length by `d`. -/
theorem patchHead_sees {F0 m s e c p} {b b' : Box} {d : Int} (A B : Bytes) (h : Sees F0 m s (A ++ b.head ++ B) c)
    (hA : A.length = p) (hm : m ≤ p) (he : b'.ext = b.ext) (hf : b'.fc = b.fc)
    (hd : (b'.body.length : Int) = b.body.length + d)
    (hpos : p + b.headLen ≤ e.maxPos) (h1 : b.body.length + 16 < 2^63) (h2 : b'.body.length + 16 < 2^63) :
    ∃ s' c', patchHead d ⟨p, b.size⟩ e s = (.ok (), s') ∧ Sees F0 m s' (A ++ b'.head ++ B) c' ∧ c' ≤ p + b.headLen := by
  have hlen : (⟨p, b.size⟩ : AtomBounds).size.len = b.headLen + b.body.length := rfl
  have hhl : b'.headLen = b.headLen := by unfold Box.headLen; rw [he]
  have hle : b.headLen ≤ 16 := by unfold Box.headLen; split <;> omega
  have hadd : addI (asI64 (⟨p, b.size⟩ : AtomBounds).size.len) d e = .ok ((b'.headLen + b'.body.length : Nat) : Int) := by
    rw [hlen, asI64_lt (by omega)]
    have : ((b.headLen + b.body.length : Nat) : Int) + d = ((b'.headLen + b'.body.length : Nat) : Int) := by omega
    rw [addI_ok e (by omega) (by omega), this]
  obtain ⟨s1, g1, k1, -, -⟩ := wSeekStart_sees (e := e) (n := p) h (by omega)
  rw [patchHead, W.bind_ok (E.w_ok hadd s), W.bind_ok (show wSeekStart (⟨p, b.size⟩ : AtomBounds).pos e s = _ from g1)]
  by_cases hx : b.ext = true
  · have hb : b.headLen = 16 := by unfold Box.headLen; rw [if_pos hx]
    rw [show b.head = be32 1 ++ b.fc.bytes ++ be64 (b.body.length + 16) by unfold Box.head; rw [if_pos hx]] at k1
    have hp : p ≤ (A ++ (be32 1 ++ b.fc.bytes ++ be64 (b.body.length + 16)) ++ B).length := by
      simp only [List.length_append]; omega
    obtain ⟨s2, g2, k2⟩ := wWriteAll_sees (e := e) k1 (toBe 4 1) hm hp
    rw [toBe_four, show A ++ (be32 1 ++ b.fc.bytes ++ be64 (b.body.length + 16)) ++ B
      = A ++ be32 1 ++ (b.fc.bytes ++ be64 (b.body.length + 16) ++ B) by simp,
      writeAt_part A (be32 1) (be32 1) _ rfl hA, be32_length] at k2
    obtain ⟨s3, g3, k3, -⟩ := wSeekCur_sees (e := e) (n := 4) k2 (by omega)
    have hp3 : p + 4 + 4 ≤ (A ++ be32 1 ++ (b.fc.bytes ++ be64 (b.body.length + 16) ++ B)).length := by
      simp only [List.length_append, be32_length, be64_length, Fourcc.bytes]; simp; omega
    obtain ⟨s4, g4, k4⟩ := wWriteAll_sees (e := e) k3 (toBe 8 (asU64 ((b'.headLen + b'.body.length : Nat) : Int))) (by omega) hp3
    rw [toBe_length] at k4
    refine ⟨s4, p + 4 + 4 + 8, ?_, ?_, by omega⟩
    · rw [if_pos (show (⟨p, b.size⟩ : AtomBounds).size.ext = true from hx), W.bind_ok g2, W.bind_ok g3, g4]
    · have hn : asU64 ((b'.headLen + b'.body.length : Nat) : Int) = b'.body.length + 16 := by
        rw [asU64_nat _ (by omega), hhl, hb, Nat.add_comm]
      have hbh : b'.head = be32 1 ++ b.fc.bytes ++ be64 (b'.body.length + 16) := by
        unfold Box.head; rw [he, if_pos hx, hf]
      rw [hbh]
      rw [hn, toBe_eight, show A ++ be32 1 ++ (b.fc.bytes ++ be64 (b.body.length + 16) ++ B)
        = (A ++ be32 1 ++ b.fc.bytes) ++ be64 (b.body.length + 16) ++ B by simp,
        writeAt_part (A ++ be32 1 ++ b.fc.bytes) (be64 (b.body.length + 16)) (be64 (b'.body.length + 16)) B rfl
          (by simp [be32_length, Fourcc.bytes]; omega)] at k4
      simpa using k4
  · have hb : b.headLen = 8 := by unfold Box.headLen; rw [if_neg hx]
    rw [show b.head = be32 (b.body.length + 8) ++ b.fc.bytes by unfold Box.head; rw [if_neg hx]] at k1
    have hp : p ≤ (A ++ (be32 (b.body.length + 8) ++ b.fc.bytes) ++ B).length := by
      simp only [List.length_append]; omega
    obtain ⟨s2, g2, k2⟩ := wWriteAll_sees (e := e) k1 (toBe 4 (asU32 ((b'.headLen + b'.body.length : Nat) : Int))) hm hp
    rw [toBe_length] at k2
    refine ⟨s2, p + 4, ?_, ?_, by omega⟩
    · rw [if_neg (show ¬ (⟨p, b.size⟩ : AtomBounds).size.ext = true from hx), g2]
    · have hbh : b'.head = be32 (b'.body.length + 8) ++ b.fc.bytes := by
        unfold Box.head; rw [he, if_neg hx, hf]
      rw [hbh]
      rw [toBe_four, be32_asU32, hhl, hb, Nat.add_comm 8, show A ++ (be32 (b.body.length + 8) ++ b.fc.bytes) ++ B
        = A ++ be32 (b.body.length + 8) ++ (b.fc.bytes ++ B) by simp,
        writeAt_part A (be32 (b.body.length + 8)) (be32 (b'.body.length + 8)) _ rfl hA] at k2
      simpa using k2

/-! ### Reading a chunk offset table -/

theorem num_eq (b : Bytes) : num b = beNat b := by
  unfold num beNat
  congr 1
  funext n x
  rw [Nat.mul_comm]

theorem readTable_at {w : Nat} {e : Env} {F : Bytes} : ∀ (n p : Nat) (R : Bytes), R.length = w * n → At F p R →
    readTable w n e F p = .ok ((pieces w n R).map num, p + w * n) := by
  intro n
  induction n with
  | zero => intro p R _ _; rfl
  | succ n ih =>
    intro p R hl hat
    have hw : (R.take w).length = w := by rw [List.length_take, hl, Nat.mul_succ]; omega
    have hR : R = R.take w ++ R.drop w := (List.take_append_drop w R).symm
    rw [hR] at hat
    have h1 := readExact_at' hat.left hw e
    have h2 := ih (p + w) (R.drop w) (by rw [List.length_drop, hl, Nat.mul_succ]; omega) (hat.right hw)
    rw [readTable, P.bind_ok h1, P.bind_ok h2, P.pure_apply, pieces, List.map_cons, num_eq, Nat.mul_succ]
    congr 2
    omega

theorem pieces_length (w n : Nat) (b : Bytes) : (pieces w n b).length = n := by
  induction n generalizing b with
  | zero => rfl
  | succ n ih => rw [pieces, List.length_cons, ih]

theorem table_count {w n : Nat} {body : Bytes} (hw : 0 < w) (h : body.length = 8 + w * n) : (body.length - 8) / w = n := by
  rw [h, Nat.add_sub_cancel_left, Nat.mul_div_cancel_left n hw]

theorem parseTable_at {w : Nat} {e F q} {b : Box} (hw : 0 < w) (ht : TableWF w b.body) (hat : At F q b.body) :
    parseTable w b.size e F q = .ok ((q + 8, offsets w b.body), q + b.body.length) := by
  obtain ⟨flags, n, hf, hn, h8, hl, ho⟩ := ht
  have hsplit : b.body = (0 :: flags ++ be32 n) ++ b.body.drop 8 := by
    rw [← h8, List.take_append_drop]
  have h8l : (0 :: flags ++ be32 n).length = 8 := by simp [hf, be32_length]
  have hat' := hat
  rw [hsplit] at hat'
  have a1 := hat'.left.left
  have a2 := hat'.left.right (n := 4) (by simp [hf])
  have a3 := hat'.right h8l
  rw [parseTable, P.bind_ok (parseFullHead_at a1 hf e)]
  simp only [if_true]
  rw [P.bind_ok (readU32_at a2 hn e), P.bind_ok (E.p_ok (b.contentLen e) _ _), P.if_apply, if_neg (by omega),
    P.bind_ok (show tellP e F (q + 4 + 4) = .ok (q + 4 + 4, q + 4 + 4) from rfl),
    P.bind_ok (readTable_at n (q + 4 + 4) (b.body.drop 8) (by rw [List.length_drop, hl]; omega) a3)]
  rw [P.pure_apply, offsets, table_count hw hl, hl]
  congr 2
  omega

/-! ### Overwriting a part of the file in place -/

/-- `act` replaces the bytes `old` at `p` by `new` (of the same length) and leaves no data in the buffer. -/
def Patch (e : Env) (F0 : Bytes) (m p : Nat) (act : W Unit) (old new : Bytes) : Prop :=
  old.length = new.length ∧ ∀ s A B c, A.length = p → (A ++ old ++ B).length < 2^62 → (A ++ old ++ B).length ≤ e.maxPos →
    s.buf = [] → Sees F0 m s (A ++ old ++ B) c →
    ∃ s' c', act e s = (.ok (), s') ∧ Sees F0 m s' (A ++ new ++ B) c' ∧ s'.buf = []

theorem Patch.frame {e F0 m p act old new} (X Y : Bytes) (h : Patch e F0 m (p + X.length) act old new) :
    Patch e F0 m p act (X ++ old ++ Y) (X ++ new ++ Y) := by
  refine ⟨by simp [h.1], fun s A B c hA hl hp hb hs => ?_⟩
  have h1 : A ++ (X ++ old ++ Y) ++ B = (A ++ X) ++ old ++ (Y ++ B) := by simp
  have h2 : A ++ (X ++ new ++ Y) ++ B = (A ++ X) ++ new ++ (Y ++ B) := by simp
  rw [h1] at hl hp hs
  rw [h2]
  exact h.2 s (A ++ X) (Y ++ B) c (by rw [List.length_append]; omega) hl hp hb hs

theorem Patch.pure (e F0 m p b) : Patch e F0 m p (pure ()) b b :=
  ⟨rfl, fun s _ _ c _ _ _ hb hs => ⟨s, c, rfl, hs, hb⟩⟩

theorem Patch.seq {e F0 m p} {a1 a2 : W Unit} {x y z} (h1 : Patch e F0 m p a1 x y) (h2 : Patch e F0 m p a2 y z) :
    Patch e F0 m p (do a1; a2) x z := by
  refine ⟨h1.1.trans h2.1, fun s A B c hA hl hp hb hs => ?_⟩
  obtain ⟨s1, c1, g1, k1, b1⟩ := h1.2 s A B c hA hl hp hb hs
  have hlen : (A ++ x ++ B).length = (A ++ y ++ B).length := by simp [h1.1]
  obtain ⟨s2, c2, g2, k2, b2⟩ := h2.2 s1 A B c1 hA (by omega) (by omega) b1 k1
  exact ⟨s2, c2, by rw [W.bind_ok g1, g2], k2, b2⟩

theorem Patch.wAll_append {α e F0 m p} {f : α → W Unit} {l1 l2 : List α} {x y z} (h1 : Patch e F0 m p (wAll f l1) x y)
    (h2 : Patch e F0 m p (wAll f l2) y z) : Patch e F0 m p (wAll f (l1 ++ l2)) x z := by
  refine ⟨h1.1.trans h2.1, fun s A B c hA hl hp hb hs => ?_⟩
  obtain ⟨s1, c1, g1, k1, b1⟩ := h1.2 s A B c hA hl hp hb hs
  have hlen : (A ++ x ++ B).length = (A ++ y ++ B).length := by simp [h1.1]
  obtain ⟨s2, c2, g2, k2, b2⟩ := h2.2 s1 A B c1 hA (by omega) (by omega) b1 k1
  exact ⟨s2, c2, by rw [wAll_append_ok g1, g2], k2, b2⟩

theorem encOffset_length {w : Nat} (hw : w = 4 ∨ w = 8) (n : Nat) : (encOffset w n).length = w := by
  unfold encOffset
  rcases hw with rfl | rfl
  · rw [if_neg (by decide), be32_length]
  · rw [if_pos rfl, be64_length]

theorem encOffset_eq {w : Nat} (hw : w = 4 ∨ w = 8) (n : Nat) : encOffset w n = toBe w n := by
  unfold encOffset
  rcases hw with rfl | rfl
  · rw [if_neg (by decide), toBe_four]
  · rw [if_pos rfl, toBe_eight]

theorem flatMap_length_const {α β} {f : α → List β} {w : Nat} (h : ∀ a, (f a).length = w) (l : List α) :
    (l.flatMap f).length = w * l.length := by
  induction l with
  | nil => rfl
  | cons a l ih => rw [List.flatMap_cons, List.length_append, h, ih, List.length_cons, Nat.mul_succ, Nat.add_comm]

theorem mapOffsets_length {w : Nat} (hw : w = 4 ∨ w = 8) {body : Bytes} (h : TableWF w body) (f : Nat → Nat) :
    (mapOffsets w f body).length = body.length := by
  obtain ⟨flags, n, hf, hn, h8, hl, ho⟩ := h
  rw [mapOffsets, List.length_append, flatMap_length_const (fun o => encOffset_length hw (f o)), offsets, List.length_map,
    pieces_length, table_count (by omega) hl, h8, hl]
  simp [hf, be32_length]

/-- The offsets written one after the other. -/
theorem writeOffsets_sees {F0 m e} {w : Nat} (hw : w = 4 ∨ w = 8) {d : Int} (hd : -2^62 ≤ d ∧ d < 2^62) :
    ∀ (os : List Nat) {s F c}, (∀ o ∈ os, o < 2^62) → Sees F0 m s F c → m ≤ c → c ≤ F.length →
    ∃ s', wAll (fun co => do
        let n ← (addI (asI64 co) d).w
        wWriteAll (toBe w (asU64 n))) os e s = (.ok (), s') ∧
      Sees F0 m s' (writeAt F c (os.flatMap fun o => encOffset w (shiftBy d o)))
        (c + (os.flatMap fun o => encOffset w (shiftBy d o)).length) := by
  intro os
  induction os with
  | nil =>
    intro s F c _ h hm hc
    refine ⟨s, rfl, ?_⟩
    rw [List.flatMap_nil, writeAt_nil F c hc]; exact h
  | cons o os ih =>
    intro s F c ho h hm hc
    have ho1 := ho o (by simp)
    have ha : addI (asI64 o) d e = .ok ((o : Int) + d) := by
      rw [asI64_lt (by omega), addI_ok e (by omega) (by omega)]
    obtain ⟨s1, h1, h2⟩ := wWriteAll_sees (e := e) h (toBe w (asU64 ((o : Int) + d))) hm hc
    obtain ⟨s2, h3, h4⟩ := ih (fun o h => ho o (by simp [h])) h2 (by omega) (by rw [writeAt_length]; omega)
    have henc : toBe w (asU64 ((o : Int) + d)) = encOffset w (shiftBy d o) := by
      rw [encOffset_eq hw]; rfl
    refine ⟨s2, ?_, ?_⟩
    · rw [wAll_cons_ok (s' := s1), h3]
      rw [W.bind_ok (E.w_ok ha s)]; exact h1
    · rw [writeAt_append] at h4
      rw [List.flatMap_cons, ← henc, List.length_append, ← Nat.add_assoc]; exact h4

/-- Shifting the offsets of one table. -/
theorem patchTable_patch {e F0 m p} {w : Nat} {b : Box} {d : Int} (hw : w = 4 ∨ w = 8) (hd : -2^62 ≤ d ∧ d < 2^62) (hm : m ≤ p)
    (ht : TableWF w b.body) :
    Patch e F0 m p (patchTable w d ⟨p, b.size⟩) b.ser (⟨b.ext, b.fc, mapOffsets w (shiftBy d) b.body⟩ : Box).ser := by
  have hlen := mapOffsets_length hw ht (shiftBy d)
  have hhead : (⟨b.ext, b.fc, mapOffsets w (shiftBy d) b.body⟩ : Box).head = b.head := by
    unfold Box.head; simp only [hlen]
  refine ⟨by rw [Box.ser, Box.ser, hhead, List.length_append, List.length_append, hlen], ?_⟩
  intro s A B c hA hl hp hb hs
  have hat : At (A ++ b.ser ++ B) p b.ser := At_intro' A B rfl hA
  have hle := hat.le
  have hpos := b.headLen_pos
  have hsl := b.ser_length
  have hbody := Box.body_at hat
  have h8 : 8 ≤ b.body.length := by obtain ⟨_, n, -, -, -, h, -⟩ := ht; omega
  have hfile : s.file = A ++ b.ser ++ B := by
    have := hs.file; rwa [flushBuf_file, if_pos hb] at this
  have hcp : (⟨p, b.size⟩ : AtomBounds).contentPos e = .ok (p + b.headLen) := by
    rw [AtomBounds.contentPos, addU, if_pos (show p + b.size.headLen < 2^64 by rw [Box.size_headLen]; omega)]
    rfl
  have hread : wRead (p + b.headLen) (parseTable w b.size) e s
      = (.ok (p + b.headLen + 8, offsets w b.body), { s with cur := e.rcur s.trace.length }) := by
    have hr : (do seekStart (p + b.headLen); parseTable w b.size : P _) e s.file 0
        = .ok ((p + b.headLen + 8, offsets w b.body), p + b.headLen + b.body.length) := by
      rw [P.bind_ok (show seekStart (p + b.headLen) e s.file 0 = .ok ((), p + b.headLen) by
        rw [seekStart, if_pos (by omega)]), hfile]
      exact parseTable_at (by omega) ht hbody
    rw [wRead]; simp only [hr]
  have k0 := hs.move hb (e.rcur s.trace.length)
  obtain ⟨s1, g1, k1, b1, -⟩ := wSeekStart_sees (e := e) (n := p + b.headLen + 8) k0 (by omega)
  have hos : ∀ o ∈ offsets w b.body, o < 2^62 := by
    obtain ⟨_, _, _, _, _, _, h⟩ := ht; exact h
  obtain ⟨s2, g2, k2⟩ := writeOffsets_sees (e := e) hw hd _ hos k1 (by omega) (by omega)
  obtain ⟨s3, g3, k3, b3, -⟩ := wFlush_sees (e := e) k2
  refine ⟨s3, p + b.headLen + 8 + ((offsets w b.body).flatMap fun o => encOffset w (shiftBy d o)).length, ?_, ?_, b3⟩
  · rw [patchTable, W.bind_ok (E.w_ok hcp s),
      W.bind_ok (show wRead (p + b.headLen) (parseTable w (⟨p, b.size⟩ : AtomBounds).size) e s = _ from hread)]
    simp only []
    rw [W.bind_ok g1, W.bind_ok g2, g3]
  · have hfin : writeAt (A ++ b.ser ++ B) (p + b.headLen + 8)
        ((offsets w b.body).flatMap fun o => encOffset w (shiftBy d o))
        = A ++ (⟨b.ext, b.fc, mapOffsets w (shiftBy d) b.body⟩ : Box).ser ++ B := by
      have h1 : A ++ b.ser ++ B = (A ++ b.head ++ b.body.take 8) ++ b.body.drop 8 ++ B := by
        rw [Box.ser]
        simp only [List.append_assoc]
        rw [← List.append_assoc (b.body.take 8), List.take_append_drop]
      rw [h1, writeAt_part _ _ _ _ (by
        have := hlen
        rw [mapOffsets, List.length_append, List.length_take] at this
        rw [List.length_drop]; omega) (by
        rw [List.length_append, List.length_append, Box.head_length, List.length_take]; omega)]
      rw [Box.ser, hhead]
      simp only [mapOffsets, List.append_assoc]
    rw [← hfin]; exact k3

/-! ### Trees -/

theorem Patch.congr {e F0 m p} {a1 a2 : W Unit} {x y} (h : ∀ s, a1 e s = a2 e s) (h2 : Patch e F0 m p a2 x y) :
    Patch e F0 m p a1 x y :=
  ⟨h2.1, fun s A B c hA hl hp hb hs => by rw [h s]; exact h2.2 s A B c hA hl hp hb hs⟩

theorem last_split {κ} (P : κ → Prop) (ks : List κ) :
    (∀ k ∈ ks, ¬ P k) ∨ ∃ A k B, ks = A ++ k :: B ∧ P k ∧ ∀ x ∈ B, ¬ P x := by
  induction ks with
  | nil => exact .inl (by simp)
  | cons k ks ih =>
    rcases ih with h | ⟨A, x, B, rfl, hx, hB⟩
    · by_cases hk : P k
      · exact .inr ⟨[], k, ks, rfl, hk, h⟩
      · left
        intro y hy
        rcases List.mem_cons.mp hy with rfl | hy
        · exact hk
        · exact h y hy
    · exact .inr ⟨k :: A, x, B, rfl, hx, hB⟩

theorem updLast_none {κ} {f : κ → Option (List κ)} {ks : List κ} (h : ∀ k ∈ ks, f k = none) : updLast f ks = none := by
  induction ks with
  | nil => rfl
  | cons k ks ih => rw [updLast, ih (fun x hx => h x (by simp [hx])), h k (by simp)]; rfl

theorem updLast_split {κ} {f : κ → Option (List κ)} {A B ys : List κ} {k : κ} (hk : f k = some ys) (hB : ∀ x ∈ B, f x = none) :
    updLast f (A ++ k :: B) = some (A ++ ys ++ B) := by
  induction A with
  | nil => rw [List.nil_append, updLast, updLast_none hB, hk]; rfl
  | cons a A ih => rw [List.cons_append, updLast, ih]; rfl

theorem mapLast_cons {κ} (f : κ → Option κ) (k : κ) (ks : List κ) :
    mapLast f (k :: ks) = if ∃ x ∈ ks, f x ≠ none then k :: mapLast f ks else (f k).getD k :: ks := by
  unfold mapLast
  rw [updLast]
  by_cases h : ∃ x ∈ ks, f x ≠ none
  · rw [if_pos h]
    obtain ⟨x, hx, hf⟩ := h
    rcases last_split (fun k => f k ≠ none) ks with hn | ⟨A, y, B, rfl, hy, hB⟩
    · exact absurd hf (hn x hx)
    · obtain ⟨y', hy'⟩ := Option.ne_none_iff_exists'.mp hy
      rw [updLast_split (ys := [y']) (by rw [hy']; rfl) (fun z hz => by rw [Decidable.not_not.mp (hB z hz)]; rfl)]
      rfl
  · rw [if_neg h, updLast_none (fun x hx => by
      have : f x = none := Decidable.byContradiction fun hc => h ⟨x, hx, hc⟩
      rw [this]; rfl)]
    cases f k <;> rfl

/-- Other values are not affected. -/
theorem sel_mapLast_other {κ β} {f : κ → Option κ} {sel : κ → Option β} (ks : List κ)
    (h : ∀ k k', f k = some k' → sel k' = sel k) : (mapLast f ks).filterMap sel = ks.filterMap sel := by
  induction ks with
  | nil => rfl
  | cons k ks ih =>
    rw [mapLast_cons]
    split
    · rw [List.filterMap_cons, ih, List.filterMap_cons]
    · cases hf : f k with
      | none => rfl
      | some k' =>
        rw [Option.getD_some, List.filterMap_cons, h k k' hf, List.filterMap_cons]

theorem box_sel_mapTable {fc fc' : Fourcc} (hne : fc ≠ fc') {w : Nat} {φ : Nat → Nat} (s : Stbl) :
    (mapLast (fun b : Box => if b.fc = fc' then some ⟨b.ext, b.fc, mapOffsets w φ b.body⟩ else none) s).filterMap (Box.sel fc)
      = s.filterMap (Box.sel fc) := by
  refine sel_mapLast_other s fun k k' h => ?_
  split at h
  · rename_i hk
    injection h with h
    subst h
    have h1 : ¬ k.fc = fc := by rw [hk]; exact Ne.symm hne
    rw [Box.sel, Box.sel, if_neg h1, if_neg h1]
  · exact absurd h (by simp)

/-- A child behind which there is none that is changed. -/
def IsLast {κ} (g : κ → Option κ) (ks : List κ) (k : κ) : Prop := ∃ A B, ks = A ++ k :: B ∧ ∀ x ∈ B, g x = none

theorem IsLast.cons {κ} {g : κ → Option κ} {ks : List κ} {k x : κ} (h : IsLast g ks x) : IsLast g (k :: ks) x := by
  obtain ⟨A, B, rfl, hB⟩ := h
  exact ⟨k :: A, B, rfl, hB⟩

theorem IsLast.mem {κ} {g : κ → Option κ} {ks : List κ} {x : κ} (h : IsLast g ks x) : x ∈ ks := by
  obtain ⟨A, B, rfl, hB⟩ := h
  simp

theorem IsLast.sel {κ β} {g : κ → Option κ} {sel : κ → Option β} {ks : List κ} {k : κ} {b : β} (h : IsLast g ks k)
    (hn : ∀ x, g x = none → sel x = none) (hk : sel k = some b) : (ks.filterMap sel).getLast? = some b := by
  obtain ⟨A, B, rfl, hB⟩ := h
  have : B.filterMap sel = [] := List.filterMap_eq_nil_iff.mpr fun x hx => hn x (hB x hx)
  simp [List.filterMap_append, List.filterMap_cons, hk, this]

theorem IsLast.kid {α} {f : α → α} {ks : List (Kid α)} {ext : Bool} {a : α} (h : IsLast (Kid.mapNode f) ks (.node ext a)) :
    (ks.filterMap Kid.sel).getLast? = some a :=
  h.sel (fun x hx => by cases x with | node => cases hx | raw => rfl) rfl

theorem IsLast.table {fc : Fourcc} {φ : Box → Box} {s : List Box} {b : Box}
    (h : IsLast (fun b : Box => if b.fc = fc then some (φ b) else none) s b) (hb : b.fc = fc) :
    (s.filterMap (Box.sel fc)).getLast? = some b.body :=
  h.sel (fun x hx => by
    split at hx
    · cases hx
    · rw [Box.sel, if_neg (by assumption)]) (by rw [Box.sel, if_pos hb])

theorem updLast_none_mem {κ} {g : κ → Option κ} {ks : List κ} (h : updLast (fun k => (g k).map ([·])) ks = none) : ∀ x ∈ ks, g x = none := by
  induction ks with
  | nil => intro x hx; cases hx
  | cons k ks ih =>
    rw [updLast] at h
    cases hu : updLast (fun k => (g k).map ([·])) ks with
    | some r => rw [hu] at h; cases h
    | none =>
      rw [hu] at h
      intro x hx
      rcases List.mem_cons.mp hx with rfl | hx
      · cases hg : g x with
        | none => rfl
        | some y => rw [hg] at h; cases h
      · exact ih hu x hx

theorem last_patch_aux {κ β e F0 m} {box : κ → Box} {f : Nat → κ → Option β} {g : κ → Option κ} {act : β → W Unit} :
    ∀ (ks : List κ) (p : Nat), m ≤ p →
    (∀ k ∈ ks, ∀ q, f q k = none → g k = none) →
    (∀ k, IsLast g ks k → ∀ q t, m ≤ q → f q k = some t → ∃ k', g k = some k' ∧ Patch e F0 m q (act t) (box k).ser (box k').ser) →
    (lastAt box f p ks = none → updLast (fun k => (g k).map ([·])) ks = none) ∧
    (∀ t, lastAt box f p ks = some t → ∃ r, updLast (fun k => (g k).map ([·])) ks = some r ∧
      Patch e F0 m p (act t) (serL box ks) (serL box r)) := by
  intro ks
  induction ks with
  | nil => intro p _ _ _; exact ⟨fun _ => rfl, fun t h => by simp [lastAt] at h⟩
  | cons k ks ih =>
    intro p hm hn hs
    obtain ⟨i1, i2⟩ := ih (p + (box k).ser.length) (by omega) (fun k hk => hn k (by simp [hk])) (fun k hk => hs k hk.cons)
    constructor
    · intro h
      rw [lastAt, Option.or_eq_none_iff] at h
      rw [updLast, i1 h.1, hn k (by simp) p h.2]; rfl
    · intro t h
      rw [lastAt] at h
      cases hl : lastAt box f (p + (box k).ser.length) ks with
      | none =>
        rw [hl, Option.none_or] at h
        obtain ⟨k', h1, h2⟩ := hs k ⟨[], ks, rfl, updLast_none_mem (i1 hl)⟩ p t hm h
        refine ⟨k' :: ks, by rw [updLast, i1 hl, h1]; rfl, ?_⟩
        rw [serL_cons, serL_cons]
        have := Patch.frame (p := p) [] (serL box ks) (by simpa using h2)
        simpa using this
      | some t' =>
        rw [hl, Option.some_or, Option.some.injEq] at h
        subst h
        obtain ⟨r, h1, h2⟩ := i2 t' hl
        refine ⟨k :: r, by rw [updLast, h1], ?_⟩
        rw [serL_cons, serL_cons]
        have := Patch.frame (p := p) (box k).ser [] h2
        simpa using this

theorem last_patch {κ β e F0 m p} {box : κ → Box} {f : Nat → κ → Option β} {g : κ → Option κ} {act : β → W Unit} {ks : List κ}
    (hm : m ≤ p) (hn : ∀ k ∈ ks, ∀ q, f q k = none → g k = none)
    (hs : ∀ k, IsLast g ks k → ∀ q t, m ≤ q → f q k = some t → ∃ k', g k = some k' ∧ Patch e F0 m q (act t) (box k).ser (box k').ser) :
    Patch e F0 m p (wOpt act (lastAt box f p ks)) (serL box ks) (serL box (mapLast g ks)) := by
  obtain ⟨h1, h2⟩ := last_patch_aux (act := act) ks p hm hn hs
  rw [mapLast]
  cases hl : lastAt box f p ks with
  | none => rw [h1 hl]; exact Patch.pure ..
  | some t =>
    obtain ⟨r, h3, h4⟩ := h2 t hl
    rw [h3]; exact h4

/-- Changing children to ones of the same length and identifier does not change what is found for others. -/
theorem lastAt_mapLast {κ β} {box : κ → Box} {f : Nat → κ → Option β} {g : κ → Option κ} {ks : List κ}
    (h : ∀ k, IsLast g ks k → ∀ k', g k = some k' → (box k').ser.length = (box k).ser.length ∧ ∀ q, f q k' = f q k) (p : Nat) :
    lastAt box f p (mapLast g ks) = lastAt box f p ks := by
  have aux : ∀ (ks : List κ) (p : Nat), (∀ k, IsLast g ks k → ∀ k', g k = some k' → (box k').ser.length = (box k).ser.length ∧ ∀ q, f q k' = f q k) →
      ∀ r, updLast (fun k => (g k).map ([·])) ks = some r → lastAt box f p r = lastAt box f p ks := by
    intro ks
    induction ks with
    | nil => intro p _ r hr; simp [updLast] at hr
    | cons k ks ih =>
      intro p h r hr
      rw [updLast] at hr
      cases hu : updLast (fun k => (g k).map ([·])) ks with
      | some r' =>
        rw [hu, Option.some.injEq] at hr
        subst hr
        rw [lastAt, lastAt, ih _ (fun k hk => h k hk.cons) r' hu]
      | none =>
        rw [hu] at hr
        simp only [Option.map_map, Option.map_eq_some_iff] at hr
        obtain ⟨k', hk', rfl⟩ := hr
        obtain ⟨h1, h2⟩ := h k ⟨[], ks, rfl, updLast_none_mem hu⟩ k' hk'
        show lastAt box f p (k' :: ks) = _
        rw [lastAt, lastAt, h1, h2]
  rw [mapLast]
  cases hu : updLast (fun k => (g k).map ([·])) ks with
  | none => rfl
  | some r => exact aux ks p h r hu

theorem mapLast_mem {κ} {g : κ → Option κ} {ks : List κ} {x : κ} (h : x ∈ mapLast g ks) :
    x ∈ ks ∨ ∃ k ∈ ks, g k = some x := by
  have aux : ∀ (ks : List κ) r, updLast (fun k => (g k).map ([·])) ks = some r → x ∈ r → x ∈ ks ∨ ∃ k ∈ ks, g k = some x := by
    intro ks
    induction ks with
    | nil => intro r hr; simp [updLast] at hr
    | cons k ks ih =>
      intro r hr hx
      rw [updLast] at hr
      cases hu : updLast (fun k => (g k).map ([·])) ks with
      | some r' =>
        rw [hu, Option.some.injEq] at hr
        subst hr
        rw [List.mem_cons] at hx
        rcases hx with rfl | hx
        · exact .inl (by simp)
        · rcases ih r' hu hx with h | ⟨k', h1, h2⟩
          · exact .inl (by simp [h])
          · exact .inr ⟨k', by simp [h1], h2⟩
      | none =>
        rw [hu] at hr
        simp only [Option.map_map, Option.map_eq_some_iff] at hr
        obtain ⟨k', hk', rfl⟩ := hr
        have hx' : x ∈ k' :: ks := hx
        rw [List.mem_cons] at hx'
        rcases hx' with rfl | hx
        · exact .inr ⟨k, by simp, hk'⟩
        · exact .inl (by simp [hx])
  rw [mapLast] at h
  cases hu : updLast (fun k => (g k).map ([·])) ks with
  | none => rw [hu] at h; exact .inl h
  | some r => rw [hu] at h; exact aux ks r hu h

/-- Shifting one kind of table of a sample table. -/
theorem leaf_patch {e F0 m p} {w : Nat} {fc : Fourcc} {d : Int} {s : List Box} (hw : w = 4 ∨ w = 8) (hd : -2^62 ≤ d ∧ d < 2^62)
    (hm : m ≤ p) (ht : ∀ body, (s.filterMap (Box.sel fc)).getLast? = some body → TableWF w body) :
    Patch e F0 m p (wOpt (patchTable w d) (lastAt id (leafAt fc) p s)) (serL id s)
      (serL id (mapLast (fun b => if b.fc = fc then some ⟨b.ext, b.fc, mapOffsets w (shiftBy d) b.body⟩ else none) s)) := by
  refine last_patch hm ?_ ?_
  · intro b hb q h
    unfold leafAt at h
    split at h
    · simp at h
    · rw [if_neg (by assumption)]
  · intro b hb q t hq h
    unfold leafAt at h
    split at h
    · rename_i hfc
      rw [Option.some.injEq] at h
      subst h
      exact ⟨_, if_pos hfc, patchTable_patch hw hd hq (ht _ (hb.table (φ := fun b => ⟨b.ext, b.fc, mapOffsets w (shiftBy d) b.body⟩) hfc))⟩
    · simp at h

theorem body_patch {e F0 m p act} {b b' : Box} (h : Patch e F0 m (p + b.headLen) act b.body b'.body) (he : b'.ext = b.ext)
    (hf : b'.fc = b.fc) : Patch e F0 m p act b.ser b'.ser := by
  have hhead : b'.head = b.head := by unfold Box.head; rw [he, hf, h.1]
  rw [Box.ser, Box.ser, hhead]
  have := Patch.frame (p := p) b.head [] (by rw [Box.head_length]; exact h)
  simpa using this

theorem stbl_patch {e F0 m q} {b : Box} {d : Int} {s : Stbl} (hd : -2^62 ≤ d ∧ d < 2^62) (hm : m ≤ q) (hb : b.body = s.ser) (ht : s.Tables) :
    Patch e F0 m q (patchStbl d (stblB q b s)) b.ser (⟨b.ext, b.fc, (s.shift d).ser⟩ : Box).ser := by
  have hpos := b.headLen_pos
  refine body_patch ?_ rfl rfl
  rw [hb, patchStbl]
  have h1 := leaf_patch (e := e) (F0 := F0) (w := 4) (fc := cc 's' 't' 'c' 'o') (s := s) (.inl rfl) hd
    (show m ≤ q + b.headLen by omega) ht.1
  have h2 := leaf_patch (e := e) (F0 := F0) (w := 8) (fc := cc 'c' 'o' '6' '4') (p := q + b.headLen)
    (s := mapLast (fun b => if b.fc = cc 's' 't' 'c' 'o' then some ⟨b.ext, b.fc, mapOffsets 4 (shiftBy d) b.body⟩ else none) s)
    (.inr rfl) hd (show m ≤ q + b.headLen by omega) (by
      rw [box_sel_mapTable (by decide) s]
      exact ht.2)
  rw [lastAt_mapLast] at h2
  · exact h1.seq h2
  · intro k hk k' h
    split at h
    · rename_i hk'
      rw [Option.some.injEq] at h
      subst h
      refine ⟨?_, fun q => ?_⟩
      · rw [Box.ser_length, Box.ser_length]
        show _ + (mapOffsets 4 (shiftBy d) k.body).length = _
        rw [mapOffsets_length (.inl rfl) (ht.1 _ (hk.table (φ := fun b => ⟨b.ext, b.fc, mapOffsets 4 (shiftBy d) b.body⟩) hk'))]; rfl
      · unfold leafAt
        rw [if_neg (by rw [hk']; decide), if_neg (by rw [hk']; decide)]
    · simp at h

theorem kids_patch {α β e F0 m p} {fc : Fourcc} {ser : α → Bytes} {T : α → Prop} {g : Nat → Box → α → β} {up : α → α} {act : β → W Unit}
    {ks : List (Kid α)} (hm : m ≤ p) (ht : ∀ a, (ks.filterMap Kid.sel).getLast? = some a → T a)
    (h : ∀ q (b : Box) a, m ≤ q → b.body = ser a → T a → Patch e F0 m q (act (g q b a)) b.ser (⟨b.ext, b.fc, ser (up a)⟩ : Box).ser) :
    Patch e F0 m p (wOpt act (lastAt (Kid.box fc ser) (kidAt (Kid.box fc ser) g) p ks)) (serL (Kid.box fc ser) ks)
      (serL (Kid.box fc ser) (mapLast (Kid.mapNode up) ks)) := by
  refine last_patch hm ?_ ?_
  · intro k hk q h
    cases k with
    | node ext a => simp [kidAt] at h
    | raw b => rfl
  · intro k hk q t hq ht'
    cases k with
    | node ext a =>
      simp only [kidAt, Option.some.injEq] at ht'
      subst ht'
      exact ⟨.node ext (up a), rfl, h q ⟨ext, fc, ser a⟩ a hq rfl (ht a hk.kid)⟩
    | raw b => simp [kidAt] at ht'

theorem minf_patch {e F0 m q} {b : Box} {d : Int} {s : Minf} (hd : -2^62 ≤ d ∧ d < 2^62) (hm : m ≤ q) (hb : b.body = s.ser) (ht : s.Tables) :
    Patch e F0 m q (wOpt (patchStbl d) (minfB q b s)) b.ser (⟨b.ext, b.fc, (s.shift d).ser⟩ : Box).ser := by
  have hpos := b.headLen_pos
  refine body_patch ?_ rfl rfl
  rw [hb]
  exact kids_patch (by omega) ht (fun q b a h1 h2 h3 => stbl_patch hd h1 h2 h3)

theorem mdia_patch {e F0 m q} {b : Box} {d : Int} {s : Mdia} (hd : -2^62 ≤ d ∧ d < 2^62) (hm : m ≤ q) (hb : b.body = s.ser) (ht : s.Tables) :
    Patch e F0 m q (wOpt (wOpt (patchStbl d)) (mdiaB q b s)) b.ser (⟨b.ext, b.fc, (s.shift d).ser⟩ : Box).ser := by
  have hpos := b.headLen_pos
  refine body_patch ?_ rfl rfl
  rw [hb]
  exact kids_patch (by omega) ht (fun q b a h1 h2 h3 => minf_patch hd h1 h2 h3)

theorem trak_patch {e F0 m q} {b : Box} {d : Int} {s : Spec.Trak} (hd : -2^62 ≤ d ∧ d < 2^62) (hm : m ≤ q) (hb : b.body = s.ser) (ht : s.Tables) :
    Patch e F0 m q (wOpt (wOpt (wOpt (patchStbl d))) (trakB q b s)) b.ser (⟨b.ext, b.fc, (s.shift d).ser⟩ : Box).ser := by
  have hpos := b.headLen_pos
  refine body_patch ?_ rfl rfl
  rw [hb]
  exact kids_patch (by omega) ht (fun q b a h1 h2 h3 => mdia_patch hd h1 h2 h3)

theorem wAll_single {α} (f : α → W Unit) (x : α) (e s) : wAll f [x] e s = f x e s := by
  rw [wAll]
  show W.bind _ _ _ _ = _
  rw [W.bind]
  rcases hx : f x e s with ⟨o, s'⟩
  cases o <;> rfl

/-- The sample tables of a track. -/
def stblOf (t : Option (Option (Option StblBounds))) : Option StblBounds := (t.bind id).bind id

theorem wAll_stblOf (f : StblBounds → W Unit) (t : Option (Option (Option StblBounds))) (e s) :
    wAll f ([t].filterMap stblOf) e s = wOpt (wOpt (wOpt f)) t e s := by
  match t with
  | none => rfl
  | some none => rfl
  | some (some none) => rfl
  | some (some (some x)) =>
    show wAll f [x] e s = _
    rw [wAll_single]; rfl

theorem stblAtoms_eq (m : MoovBounds) : stblAtoms m = m.trak.filterMap stblOf := rfl

theorem moov_patch {e F0 m} {d : Int} (hd : -2^62 ≤ d ∧ d < 2^62) : ∀ (ks : List MoovKid) (p : Nat), m ≤ p →
    (∀ ext t, MoovKid.trak ext t ∈ ks → t.Tables) →
    Patch e F0 m p (wAll (patchStbl d) ((allAt MoovKid.box trakAt p ks).filterMap stblOf)) (serL MoovKid.box ks)
      (serL MoovKid.box (ks.map (MoovKid.mapTrak (Spec.Trak.shift d)))) := by
  intro ks
  induction ks with
  | nil => intro p _ _; exact Patch.pure ..
  | cons k ks ih =>
    intro p hm ht
    have hi := ih (p + k.box.ser.length) (by omega) (fun ext t h => ht ext t (by simp [h]))
    rw [allAt, List.filterMap_append, List.map_cons, serL_cons, serL_cons]
    have hk : Patch e F0 m p (wAll (patchStbl d) ((trakAt p k).toList.filterMap stblOf)) k.box.ser
        (k.mapTrak (Spec.Trak.shift d)).box.ser := by
      cases k with
      | trak ext t =>
        exact Patch.congr (fun s => wAll_stblOf _ _ e s)
          (trak_patch (b := ⟨ext, cc 't' 'r' 'a' 'k', t.ser⟩) hd hm rfl (ht ext t (by simp)))
      | udta ext u => exact Patch.pure ..
      | raw b => exact Patch.pure ..
    have h1 := Patch.frame (p := p) [] (serL MoovKid.box ks) (by simpa using hk)
    have h2 := Patch.frame (p := p) (k.mapTrak (Spec.Trak.shift d)).box.ser [] (by rw [← hk.1]; exact hi)
    simp only [List.nil_append, List.append_nil] at h1 h2
    exact h1.wAll_append h2

end Mp4
