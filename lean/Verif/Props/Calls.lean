import Verif.Proof.CallsLow
import Verif.Props.Reader
/-
C87: how often the reader is called.
-/
namespace Mp4.Props
open Mp4 Spec

/-! ### C87 -/

/-- **C87, in full, for the bound `K`.** Whatever the reader does in each call, whatever the content, as long as no 64 bit size in it
is absurd: reading a tag makes at most `K` calls per byte (and `K` more), apart from those that are interrupted. -/
def C87_full (K : Nat) : Prop :=
  ∀ (c : Sched) (e : Env) (F : Bytes) (pos : Nat), F.length < 2^63 → e.maxPos < 2^63 → SaneSizes F →
    busy c (readTagVia c e F pos).2.tick ≤ K * F.length + K

/-- **C87, if overflows are checked.** Four calls per byte suffice, and one more. -/
theorem C87_checked (c : Sched) (e : Env) (F : Bytes) (pos : Nat) (hc : e.checked = true) (hF : F.length < 2^63) (hm : e.maxPos < 2^63)
    (hs : SaneSizes F) : busy c (readTagVia c e F pos).2.tick ≤ 4 * (F.length - pos) + 1 :=
  readTag_calls_checked ⟨hm, hF, hs⟩ hc c pos

/-- **C87, partial.** In all builds: four calls per byte, and three more for each place where `mp4a` is found.
Missing: a bound that does not depend on the number of these places; there is none (`C87_refuted`). -/
theorem C87_partial (c : Sched) (e : Env) (F : Bytes) (pos : Nat) (hF : F.length < 2^63) (hm : e.maxPos < 2^63) (hs : SaneSizes F) :
    busy c (readTagVia c e F pos).2.tick ≤ 4 * (F.length - pos) + 3 * F.length * mp4aCount (F.drop pos) + 1 :=
  readTag_calls ⟨hm, hF, hs⟩ c pos

/-- **C87.** In particular the bound is linear for files without `mp4a`, in all builds. -/
theorem C87_no_mp4a (c : Sched) (e : Env) (F : Bytes) (pos : Nat) (hF : F.length < 2^63) (hm : e.maxPos < 2^63) (hs : SaneSizes F)
    (h : ∀ A B, F ≠ A ++ "mp4a".toUTF8.toList ++ B) : busy c (readTagVia c e F pos).2.tick ≤ 4 * F.length + 1 := by
  have h0 : mp4aCount (F.drop pos) = 0 := by
    have key : ∀ G A : Bytes, F = A ++ G → mp4aCount G = 0 := by
      intro G
      induction G with
      | nil => intro A _; rfl
      | cons x G ih =>
        intro A hA
        have h1 := ih (A ++ [x]) (by rw [hA, List.append_assoc]; rfl)
        have h2 : ¬ (x :: G).take 4 = [0x6d, 0x70, 0x34, 0x61] := by
          intro ht
          refine h A ((x :: G).drop 4) ?_
          have : "mp4a".toUTF8.toList = (x :: G).take 4 := by rw [ht]; decide +kernel
          rw [this, List.append_assoc, List.take_append_drop]
          exact hA
        rw [mp4aCount, if_neg h2, h1]
    exact key _ (F.take pos) (List.take_append_drop _ _).symm
  have := C87_partial c e F pos hF hm hs
  rw [h0, Nat.mul_zero] at this
  omega

/-- **C87.** The part of writing that only reads (everything up to the first change of the file) makes at most five calls per byte,
and one more, in all builds. -/
theorem C87_write (c : Sched) (e : Env) (F : Bytes) (pos : Nat) (atoms : List AtomData) (hF : F.length < 2^63) (hm : e.maxPos < 2^63)
    (hs : SaneSizes F) : busy c (preparePhaseR atoms c e F { pos := pos }).2.tick ≤ 5 * F.length + 1 :=
  prepare_calls ⟨hm, hF, hs⟩ c atoms pos

/-- **C87.** Without overflow checks, a reader that always returns all that is asked for is called at least `3 * m * n` times for a file
of `64 + 61 * n + 2 * m` bytes, which is read successfully. -/
theorem C87_quadratic (e : Env) (n m : Nat) (hc : e.checked = false) (h0 : 0 < n) (hb : 8 + 61 * n + 2 * m < 2^28)
    (hf : 64 + 61 * n + 2 * m ≤ e.fuel) (hm : 64 + 61 * n + 2 * m ≤ e.maxPos) (hm' : e.maxPos < 2^63) :
    (strideFile n m).length = 64 + 61 * n + 2 * m ∧ SaneSizes (strideFile n m) ∧
    (∃ t, (readTagVia promptly e (strideFile n m) 0).1 = .ok t) ∧
    3 * m * n ≤ busy promptly (readTagVia promptly e (strideFile n m) 0).2.tick := by
  have hl := strideFile_length n m
  exact ⟨hl, strideFile_sane hb, stride_calls hc h0 hb (by omega) (by omega) hm'⟩

/-- A build without overflow checks. -/
def envStride : Env := { env0 with checked := false, fuel := 2^28, maxPos := 2^62 }

/-- **C87, refuted.** No number below 2^20 will do for all readers and files. -/
theorem C87_refuted (K : Nat) (hK : K < 2^20) : ¬ C87_full K := by
  intro h
  obtain ⟨n, hn⟩ : ∃ n, n = 2 * (K + 1) := ⟨_, rfl⟩
  have hb : 8 + 61 * n + 2 * (31 * n) < 2^28 := by omega
  have hq := C87_quadratic envStride n (31 * n) rfl (by omega) hb (by show _ ≤ 2^28; omega) (by show _ ≤ 2^62; omega)
    (by show 2^62 < 2^63; omega)
  obtain ⟨hl, hs, -, hq⟩ := hq
  have hc := h promptly envStride (strideFile n (31 * n)) 0 (by omega) (by show 2^62 < 2^63; omega) hs
  rw [hl] at hc
  have h1 : 3 * (31 * n) * n ≤ K * (64 + 61 * n + 2 * (31 * n)) + K := Nat.le_trans hq hc
  have h2 : 93 * (n * n) = 3 * (31 * n) * n := by rw [← Nat.mul_assoc 3 31 n, Nat.mul_assoc]
  have h3 : K * (64 + 61 * n + 2 * (31 * n)) + K = 65 * K + 123 * (K * n) := by
    rw [show 64 + 61 * n + 2 * (31 * n) = 64 + 123 * n by omega, Nat.mul_add, Nat.mul_left_comm]
    omega
  have h4 : n * n = 2 * (K * n) + 2 * n := by
    conv => lhs; lhs; rw [hn]
    rw [Nat.mul_assoc, Nat.add_mul, Nat.one_mul]
    omega
  omega

/-- A file of two `mp4a` and three empty descriptors: with overflow checks reading panics at the end of the first `mp4a`. -/
example : (strideFile 2 3).length = 192 ∧ mp4aCount (strideFile 2 3) = 2 ∧
    busy promptly (readTagVia promptly { env0 with checked := false } (strideFile 2 3) 0).2.tick = 82 ∧
    busy promptly (readTagVia promptly env0 (strideFile 2 3) 0).2.tick = 50 ∧ (readTagVia promptly env0 (strideFile 2 3) 0).1 = .panic := by
  decide +kernel

/-- The example file, byte by byte, and with a reader that is interrupted in the first two calls and then returns up to four bytes. -/
example : fileEx.ser.length = 481 ∧ busy (fun _ => .give 0) (readTagVia (fun _ => .give 0) env0 fileEx.ser 0).2.tick = 392 ∧
    (readTagVia schedEx' env0 fileEx.ser 0).2.tick = 144 ∧ busy schedEx' (readTagVia schedEx' env0 fileEx.ser 0).2.tick = 142 := by decide +kernel

/-- The part of saving that only reads, byte by byte. -/
example : fileW.ser.length = 509 ∧
    busy (fun _ => .give 0) (preparePhaseR atomsW (fun _ => .give 0) env0 fileW.ser { pos := 0 }).2.tick = 237 := by decide +kernel

end Mp4.Props
