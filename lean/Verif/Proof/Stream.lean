import Verif.Spec.Layout
import Verif.Model.Find
import Verif.Proof.Monad
import Verif.Proof.Bytes
/-
Reading known bytes at known positions, and the container loop over known children.
-/
namespace Mp4
open Spec

/-! ### Bytes at a position -/

/-- The bytes `c` are in `F` at position `p`. -/
def At (F : Bytes) (p : Nat) (c : Bytes) : Prop :=
  p + c.length ≤ F.length ∧ (F.drop p).take c.length = c

theorem At.le {F p c} (h : At F p c) : p + c.length ≤ F.length := h.1

theorem At_append {F p a b} : At F p (a ++ b) ↔ At F p a ∧ At F (p + a.length) b := by
  unfold At
  rw [List.length_append, List.take_add, List.drop_drop]
  constructor
  · rintro ⟨h1, h2⟩
    have hl : ((F.drop p).take a.length).length = a.length := by simp; omega
    have := List.append_inj h2 hl
    exact ⟨⟨by omega, this.1⟩, ⟨by omega, this.2⟩⟩
  · rintro ⟨⟨h1, h2⟩, ⟨h3, h4⟩⟩
    exact ⟨by omega, by rw [h2, h4]⟩

theorem At.left {F p a b} (h : At F p (a ++ b)) : At F p a := (At_append.mp h).1

theorem At.right {F p a b n} (h : At F p (a ++ b)) (hn : a.length = n) : At F (p + n) b := by
  subst hn; exact (At_append.mp h).2

theorem At_intro (A c B : Bytes) : At (A ++ c ++ B) A.length c := by
  refine ⟨by simp, ?_⟩
  rw [List.append_assoc, List.drop_left, List.take_left]

theorem At_intro' {F : Bytes} {p c} (A B : Bytes) (hF : F = A ++ c ++ B) (hp : A.length = p) : At F p c := by
  subst hF hp; exact At_intro A c B

theorem At_nil {F p} (h : p ≤ F.length) : At F p [] := ⟨by simpa using h, by simp⟩

theorem At.elim {F p c} (h : At F p c) : ∃ A B, F = A ++ c ++ B ∧ A.length = p := by
  refine ⟨F.take p, F.drop (p + c.length), ?_, ?_⟩
  · have h2 := h.2
    conv => lhs; rw [← List.take_append_drop p F, ← List.take_append_drop c.length (F.drop p), h2]
    rw [List.drop_drop, List.append_assoc]
  · have := h.1; simp; omega

theorem At.cons {F p x c} (h : At F p (x :: c)) : At F p [x] ∧ At F (p + 1) c := by
  have : x :: c = [x] ++ c := rfl
  rw [this, At_append] at h
  exact h

/-! ### Primitive reads -/

/-- What is assumed of the environment: the file can be addressed and loops may run long enough. -/
structure Fit (e : Env) (F : Bytes) : Prop where
  pos : F.length ≤ e.maxPos
  len : F.length < 2^63
  fuel : F.length < e.fuel

theorem readExact_at {F p c} (h : At F p c) (e : Env) : readExact c.length e F p = .ok (c, p + c.length) := by
  rw [readExact, if_pos (Or.inr h.1), h.2]

theorem readExact_at' {F p c n} (h : At F p c) (hn : c.length = n) (e : Env) :
    readExact n e F p = .ok (c, p + n) := by subst hn; exact readExact_at h e

theorem readU8_at {F p x} (h : At F p [x]) (e : Env) : readU8 e F p = .ok (x, p + 1) := by
  rw [readU8, P.bind_ok (readExact_at' (n := 1) h rfl e)]; rfl

theorem toBe_four (n : Nat) : toBe 4 n = be32 n := by
  have h : ∀ m, UInt8.ofNat (m % 256) = UInt8.ofNat m := by
    intro m; apply UInt8.toNat_inj.mp; simp [UInt8.toNat_ofNat']
  simp only [toBe, be32, h, List.nil_append, List.cons_append, Nat.div_div_eq_div_mul]

theorem be32_length (n : Nat) : (be32 n).length = 4 := rfl
theorem be64_length (n : Nat) : (be64 n).length = 8 := rfl

theorem beNat_be32 (n : Nat) (h : n < 2^32) : beNat (be32 n) = n := by
  rw [← toBe_four, beNat_toBe_of_lt _ _ (by simpa using h)]

theorem toBe_add (k j n : Nat) : toBe (k + j) n = toBe k (n / 256 ^ j) ++ toBe j n := by
  induction j generalizing n with
  | zero => simp [toBe]
  | succ j ih =>
    have : k + (j + 1) = (k + j) + 1 := by omega
    rw [this, toBe, toBe, ih, Nat.div_div_eq_div_mul, List.append_assoc, Nat.pow_succ,
      Nat.mul_comm 256]

theorem toBe_eight (n : Nat) : toBe 8 n = be64 n := by
  rw [be64, ← toBe_four, ← toBe_four, ← toBe_add 4 4]

theorem beNat_be64 (n : Nat) (h : n < 2^64) : beNat (be64 n) = n := by
  rw [← toBe_eight, beNat_toBe_of_lt _ _ (by simpa using h)]

theorem readU32_at {F p n} (h : At F p (be32 n)) (hn : n < 2^32) (e : Env) :
    readU32 e F p = .ok (n, p + 4) := by
  rw [readU32, P.bind_ok (readExact_at' h (be32_length n) e), beNat_be32 n hn]; rfl

theorem readU64_at {F p n} (h : At F p (be64 n)) (hn : n < 2^64) (e : Env) :
    readU64 e F p = .ok (n, p + 8) := by
  rw [readU64, P.bind_ok (readExact_at' h (be64_length n) e), beNat_be64 n hn]; rfl

theorem seekCur_ok {e : Env} {F : Bytes} {p n : Nat} (h : p + n ≤ e.maxPos) :
    seekCur n e F p = .ok ((), p + n) := by
  rw [seekCur, if_pos (by omega)]
  congr 2

theorem asI64_small {n : Nat} (h : n < 2^63) : asI64 n = n := by rw [asI64, if_pos h]

theorem readU8Vec_at {F p c n} (h : At F p c) (hn : c.length = n) (hl : n < 2^63) (e : Env) :
    readU8Vec n e F p = .ok (c, p + n) := by
  have ha : (allocU8 n) e = .ok () := by rw [allocU8, if_neg (by omega)]
  rw [readU8Vec, P.bind_ok (E.p_ok ha F p), readExact_at' h hn e]

/-! ### Atom heads -/

theorem Spec.Box.head_length (b : Box) : b.head.length = b.headLen := by
  unfold Box.head Box.headLen
  split <;> simp [be32_length, be64_length, Fourcc.bytes]

theorem Spec.Box.ser_length (b : Box) : b.ser.length = b.headLen + b.body.length := by
  rw [Box.ser, List.length_append, Box.head_length]

theorem Spec.Box.headLen_pos (b : Box) : 8 ≤ b.headLen := by unfold Box.headLen; split <;> omega

/-- The size as parsed. -/
def Spec.Box.size (b : Box) : Size := ⟨b.ext, b.headLen + b.body.length⟩

/-- The head as parsed. -/
def Spec.Box.hd (b : Box) : Head := ⟨b.size, b.fc⟩

theorem Spec.Box.size_headLen (b : Box) : b.size.headLen = b.headLen := rfl

theorem Spec.Box.contentLen (b : Box) (e : Env) : b.size.contentLen e = .ok b.body.length := by
  rw [Size.contentLen, subU]
  have : (if b.size.ext = true then 16 else 8) = b.headLen := rfl
  rw [this, if_pos (by simp [Box.size])]
  simp [Box.size]

theorem fourcc_bytes (f : Fourcc) :
    (⟨f.bytes.getD 0 0, f.bytes.getD 1 0, f.bytes.getD 2 0, f.bytes.getD 3 0⟩ : Fourcc) = f := by
  cases f; rfl

theorem Spec.Box.body_at {F p} {b : Box} (h : At F p b.ser) : At F (p + b.headLen) b.body := by
  rw [Box.ser, At_append, Box.head_length] at h
  exact h.2

/-- Only the head itself has to be there. -/
theorem parseHead_head {F p} {b : Box} (hh : At F p b.head) (hf : b.Fits) (hle : b.headLen + b.body.length < 2^64) (e : Env) :
    parseHead e F p = .ok (b.hd, p + b.headLen) := by
  unfold Box.head at hh
  rw [parseHead]
  by_cases hx : b.ext = true
  · rw [if_pos hx] at hh
    have hl : b.headLen = 16 := by rw [Box.headLen, if_pos hx]
    rw [At_append, At_append] at hh
    obtain ⟨⟨h1, h2⟩, h3⟩ := hh
    rw [be32_length] at h2
    rw [P.bind_ok (readU32_at h1 (by decide) e)]
    rw [P.bind_ok (readExact_at' (n := 4) h2 rfl e)]
    simp only [fourcc_bytes, if_true]
    have h3' : At F (p + 4 + 4) (be64 (b.body.length + 16)) := by
      simpa [be32_length, Fourcc.bytes, Nat.add_assoc] using h3
    rw [P.bind_ok (readU64_at h3' (by omega) e)]
    simp only [P.pure_apply, Box.hd, Box.size, hx, hl, Nat.add_comm]
    congr 2; omega
  · rw [if_neg hx] at hh
    have hl : b.headLen = 8 := by rw [Box.headLen, if_neg hx]
    have hfit := hf (by simpa using hx)
    rw [At_append] at hh
    obtain ⟨h1, h2⟩ := hh
    rw [be32_length] at h2
    rw [P.bind_ok (readU32_at h1 hfit e)]
    rw [P.bind_ok (readExact_at' (n := 4) h2 rfl e)]
    simp only [fourcc_bytes]
    rw [if_neg (by omega), if_neg (by omega)]
    have : b.ext = false := by simpa using hx
    simp only [P.pure_apply, Box.hd, Box.size, this, hl, Nat.add_comm]
    congr 2; omega

theorem parseHead_box {F p} {b : Box} (h : At F p b.ser) (hf : b.Fits) (hF : F.length < 2^63) (e : Env) :
    parseHead e F p = .ok (b.hd, p + b.headLen) := by
  have hle := h.le
  rw [Box.ser_length] at hle
  rw [Box.ser, At_append] at h
  exact parseHead_head h.1 hf (by omega) e

theorem skipContent_box {F p} {b : Box} (h : At F p b.ser) {e : Env} (hF : Fit e F) :
    skipContent b.hd e F (p + b.headLen) = .ok ((), p + b.ser.length) := by
  have hle := h.le
  have h1 := hF.len
  have h2 := hF.pos
  rw [Box.ser_length] at hle ⊢
  have hc : b.hd.size.contentLen e = .ok b.body.length := b.contentLen e
  rw [skipContent, P.bind_ok (E.p_ok hc F _), asI64_small (by omega), seekCur_ok (by omega)]
  congr 2
  omega

theorem findBounds_box {F : Bytes} {p} (b : Box) (e : Env) :
    findBounds b.size e F (p + b.headLen) = .ok (⟨p, b.size⟩, p + b.headLen) := by
  rw [findBounds, P.bind_ok (show tellP e F (p + b.headLen) = .ok (p + b.headLen, p + b.headLen) from rfl)]
  have : subU (p + b.headLen) b.size.headLen e = .ok p := by
    rw [subU, Box.size_headLen, if_pos (by omega)]; congr 1; omega
  rw [P.bind_ok (E.p_ok this F _)]; rfl

theorem seekToEnd_ok {e : Env} {F : Bytes} {p q : Nat} (b : AtomBounds) (h1 : p ≤ q)
    (h2 : b.pos + b.size.len = q) (h3 : q ≤ e.maxPos) (h4 : q < 2^63) :
    seekToEnd b e F p = .ok ((), q) := by
  rw [seekToEnd, P.bind_ok (show tellP e F p = .ok (p, p) from rfl)]
  have he : b.end_ e = .ok q := by rw [AtomBounds.end_, addU, if_pos (by omega), h2]
  rw [P.bind_ok (E.p_ok he F _)]
  have hs : subU q p e = .ok (q - p) := by rw [subU, if_pos h1]
  rw [P.bind_ok (E.p_ok hs F _), asI64_small (by omega), seekCur_ok (by omega)]
  congr 2
  omega

theorem parseFullHead_at {F p v f} (h : At F p (v :: f)) (hf : f.length = 3) (e : Env) :
    parseFullHead e F p = .ok ((v, f), p + 4) := by
  obtain ⟨h1, h2⟩ := h.cons
  rw [parseFullHead, P.bind_ok (readU8_at h1 e), P.bind_ok (readExact_at' h2 hf e)]
  rfl

/-! ### The container loop -/

theorem serL_nil {κ} (box : κ → Box) : serL box [] = [] := rfl
theorem serL_cons {κ} (box : κ → Box) (k : κ) (ks : List κ) : serL box (k :: ks) = (box k).ser ++ serL box ks := by
  simp [serL]
theorem serL_append {κ} (box : κ → Box) (a b : List κ) : serL box (a ++ b) = serL box a ++ serL box b := by
  simp [serL]

theorem serL_length_le {κ} (box : κ → Box) (ks : List κ) : 8 * ks.length ≤ (serL box ks).length := by
  induction ks with
  | nil => simp
  | cons k ks ih =>
    rw [serL_cons, List.length_append, Box.ser_length, List.length_cons]
    have := (box k).headLen_pos
    omega

/-- Folding over children together with their positions. -/
def foldAt {κ σ} (box : κ → Box) (step : σ → Nat → κ → σ) : σ → Nat → List κ → σ
  | s, _, [] => s
  | s, p, k :: ks => foldAt box step (step s p k) (p + (box k).ser.length) ks

theorem walk_kids {κ σ} {box : κ → Box} {handle : σ → Head → P σ} {step : σ → Nat → κ → σ}
    {e : Env} {F : Bytes} {limit : E Nat} {lim : Nat} (hF : F.length < 2^63) (hlim : limit e = .ok lim) :
    ∀ (ks : List κ) (fuel parsed p : Nat) (s : σ),
    (∀ k ∈ ks, (box k).Fits) →
    (∀ k ∈ ks, ∀ q s, At F q (box k).ser →
      handle s (box k).hd e F (q + (box k).headLen) = .ok (step s q k, q + (box k).ser.length)) →
    At F p (serL box ks) → ks.length < fuel → parsed + (serL box ks).length = lim → lim < 2^64 →
    walk limit handle fuel s parsed e F p
      = .ok (foldAt box step s p ks, p + (serL box ks).length) := by
  intro ks
  induction ks with
  | nil =>
    intro fuel parsed p s _ _ _ hf hp _
    cases fuel with
    | zero => simp at hf
    | succ fuel =>
      rw [walk, P.bind_ok (E.p_ok hlim F p), P.if_apply, if_neg (by simp [serL_nil] at hp; omega)]
      rfl
  | cons k ks ih =>
    intro fuel parsed p s hfit hh hat hf hp hl
    cases fuel with
    | zero => simp at hf
    | succ fuel =>
      rw [serL_cons, List.length_append] at hp
      rw [serL_cons, At_append] at hat
      have hpos := (box k).headLen_pos
      have hsl := (box k).ser_length
      rw [walk, P.bind_ok (E.p_ok hlim F p), P.if_apply, if_pos (by omega)]
      rw [P.bind_ok (parseHead_box hat.1 (hfit k (by simp)) hF e)]
      rw [P.bind_ok (hh k (by simp) p s hat.1)]
      have ha : addU parsed (box k).hd.size.len e = .ok (parsed + (box k).ser.length) := by
        have : (box k).hd.size.len = (box k).ser.length := by rw [hsl]; rfl
        rw [this, addU, if_pos (by omega)]
      rw [P.bind_ok (E.p_ok ha F _)]
      rw [ih fuel _ _ _ (fun k hk => hfit k (by simp [hk])) (fun k hk => hh k (by simp [hk])) hat.2
        (by simpa using hf) (by omega) hl]
      rw [serL_cons, List.length_append, Nat.add_assoc]; rfl

theorem loop_kids {κ σ} {box : κ → Box} {handle : σ → Head → P σ} {step : σ → Nat → κ → σ}
    {e : Env} {F : Bytes} {limit : E Nat} {parsed : Nat} {ks : List κ} {p : Nat} (s : σ)
    (hF : Fit e F) (hlim : limit e = .ok (parsed + (serL box ks).length))
    (hfit : ∀ k ∈ ks, (box k).Fits)
    (hh : ∀ k ∈ ks, ∀ q s, At F q (box k).ser →
      handle s (box k).hd e F (q + (box k).headLen) = .ok (step s q k, q + (box k).ser.length))
    (hat : At F p (serL box ks)) (hp : parsed ≤ p) :
    loop limit handle s parsed e F p = .ok (foldAt box step s p ks, p + (serL box ks).length) := by
  have h1 := hat.le
  have h2 := hF.len
  have h3 := hF.fuel
  have h4 := serL_length_le box ks
  rw [loop, P.bind_ok (show getFuel e F p = .ok (e.fuel, p) from rfl)]
  exact walk_kids hF.len hlim ks e.fuel parsed p s hfit hh hat (by omega) rfl (by omega)

theorem foldAt_ignore {κ σ} (box : κ → Box) (step : σ → κ → σ) (s : σ) (p : Nat) (ks : List κ) :
    foldAt box (fun s _ k => step s k) s p ks = ks.foldl step s := by
  induction ks generalizing s p with
  | nil => rfl
  | cons k ks ih => rw [foldAt, ih, List.foldl_cons]

end Mp4
