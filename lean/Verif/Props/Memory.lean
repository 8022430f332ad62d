import Verif.Proof.Memory
import Verif.Proof.Amplify
import Verif.Props.Reader
/-
C88: how much memory is requested because of sizes found in the input.
-/
namespace Mp4.Props
open Mp4 Spec

/-! ### C88 -/

/-- **C88, in full, for the bound `K`.** Whatever the reader does, whatever the content, as long as no 64 bit size in it is absurd: the
buffers requested while reading a tag are, taken together, not larger than `K` times the content (and `K` bytes). -/
def C88_full (K : Nat) : Prop :=
  ∀ (c : Sched) (e : Env) (F : Bytes) (pos : Nat), F.length < 2^63 → e.maxPos < 2^63 → SaneSizes F →
    (readTagVia c e F pos).2.mem.sum ≤ K * F.length + K

/-- Nothing is read, and nothing requested, behind the end. -/
theorem behind_end (c : Sched) (e : Env) (F : Bytes) (pos : Nat) (h : F.length ≤ pos) : (readTagVia c e F pos).2.mem = [] := by
  unfold readTagVia
  have key : ∀ {α : Type} (f : Bytes → R α), (R.bind (readExactR 4) f c e F { pos := pos }).2.mem = [] := by
    intro α f
    obtain ⟨h1, -⟩ := readExactLoop_mem c e F e.fuel 4 [] { pos := pos }
    have hc := readExactLoop_cost c e F e.fuel 4 [] { pos := pos }
    unfold R.bind
    have hr : readExactR 4 c e F { pos := pos } = readExactLoop e.fuel 4 [] c e F { pos := pos } := rfl
    rw [hr]
    rcases hx : readExactLoop e.fuel 4 [] c e F { pos := pos } with ⟨a | k | _ | _, t1⟩ <;> rw [hx] at h1 hc
    · obtain ⟨-, -, h3, -⟩ := hc
      have := h3 (by omega)
      change pos + 4 ≤ _ at this
      omega
    all_goals exact h1
  have assoc : ∀ {α β γ : Type} (m : R α) (f : α → R β) (g : β → R γ) (t : RSt),
      R.bind (R.bind m f) g c e F t = R.bind m (fun a => R.bind (f a) g) c e F t := by
    intro α β γ m f g t
    unfold R.bind
    rcases m c e F t with ⟨a | k | _ | _, t1⟩ <;> rfl
  show (R.bind (R.bind (R.bind (R.bind (readExactR 4) _) _) _) _ c e F _).2.mem = []
  rw [assoc, assoc, assoc]
  exact key _

/-- **C88, partial.** If reading succeeds, or fails with anything but an I/O error, then all buffers that were requested fit side by side
between the start and the end of the input. In any case this holds for all requests but the last one.
Missing: the last request before an I/O error (or a panic); it is not limited by the input (`C88_refuted`). -/
theorem C88_partial (c : Sched) (e : Env) (F : Bytes) (pos : Nat) (hF : F.length < 2^63) (hm : e.maxPos < 2^63) (hs : SaneSizes F) :
    ((readTagVia c e F pos).1 ≠ .err .io → (readTagVia c e F pos).1 ≠ .panic → (readTagVia c e F pos).1 ≠ .fuel →
      (readTagVia c e F pos).2.mem.sum ≤ F.length - pos) ∧
    (readTagVia c e F pos).2.mem.tail.sum ≤ F.length - pos := by
  rcases Nat.lt_or_ge pos F.length with hp | hp
  · have h := (Mem.readTag (c := c) ⟨hm, hF, hs⟩).run { pos := pos } (by show pos < 2^63; omega)
    have tl : ∀ l : List Nat, l.tail.sum ≤ l.sum := by
      intro l
      cases l with
      | nil => exact Nat.le_refl _
      | cons x l => rw [List.sum_cons]; exact Nat.le_add_left _ _
    unfold readTagVia
    rcases hx : readTagR c e F { pos := pos } with ⟨a | k | _ | _, t1⟩ <;> rw [hx] at h
    · obtain ⟨-, h, -⟩ := h
      have h : t1.mem.sum + (F.length - t1.pos) ≤ 0 + (F.length - pos) := h
      have := tl t1.mem
      exact ⟨fun _ _ _ => by show t1.mem.sum ≤ _; omega, by show t1.mem.tail.sum ≤ _; omega⟩
    all_goals
      rcases h with h | ⟨ho, n, rest, h1, h2⟩
      · have h : t1.mem.sum ≤ 0 + (F.length - pos) := h
        have := tl t1.mem
        exact ⟨fun _ _ _ => by show t1.mem.sum ≤ _; omega, by show t1.mem.tail.sum ≤ _; omega⟩
      · refine ⟨fun ha hb hc => ?_, ?_⟩
        · rcases ho with ho | ho | ho
          · exact absurd ho ha
          · exact absurd ho hb
          · exact absurd ho hc
        · show t1.mem.tail.sum ≤ _
          rw [h1]
          have h2 : rest.sum ≤ 0 + (F.length - pos) := h2
          show rest.sum ≤ _
          omega
  · rw [behind_end c e F pos hp]
    exact ⟨fun _ _ _ => Nat.zero_le _, Nat.zero_le _⟩

/-- **C88.** In particular a tag that is read required no more memory for buffers than the input has bytes. -/
theorem C88_ok (c : Sched) (e : Env) (F : Bytes) (pos : Nat) (t : Tag) (hF : F.length < 2^63) (hm : e.maxPos < 2^63) (hs : SaneSizes F)
    (h : (readTagVia c e F pos).1 = .ok t) : (readTagVia c e F pos).2.mem.sum ≤ F.length := by
  have := (C88_partial c e F pos hF hm hs).1 (by rw [h]; intro h; cases h) (by rw [h]; intro h; cases h) (by rw [h]; intro h; cases h)
  omega

/-- **C88.** The part of writing that only reads: at most twice the input (its brand, and everything that moves), again apart from a last
request after which there is an I/O error or a panic. -/
theorem C88_write (c : Sched) (e : Env) (F : Bytes) (pos : Nat) (atoms : List AtomData) (hF : F.length < 2^63) (hm : e.maxPos < 2^63)
    (hs : SaneSizes F) (hp : pos < 2^63) :
    ((∃ x, (preparePhaseR atoms c e F { pos := pos }).1 = .ok x) → (preparePhaseR atoms c e F { pos := pos }).2.mem.sum ≤ 2 * F.length) ∧
    (preparePhaseR atoms c e F { pos := pos }).2.mem.tail.sum ≤ 2 * F.length := by
  have h := (Adds.preparePhase (c := c) ⟨hm, hF, hs⟩ atoms).run { pos := pos } hp
  have h0 : (List.sum ({ pos := pos : RSt }).mem : Nat) = 0 := rfl
  rw [h0] at h
  rcases h with ⟨h, -⟩ | ⟨ho, n, rest, h1, h2⟩
  · refine ⟨fun _ => by omega, ?_⟩
    have tl : ∀ l : List Nat, l.tail.sum ≤ l.sum := by
      intro l
      cases l with
      | nil => exact Nat.le_refl _
      | cons x l => rw [List.sum_cons]; exact Nat.le_add_left _ _
    have := tl (preparePhaseR atoms c e F { pos := pos }).2.mem
    omega
  · refine ⟨fun ⟨x, hx⟩ => ?_, ?_⟩
    · rw [hx] at ho; simp at ho
    · rw [h1]
      show rest.sum ≤ _
      omega

/-- **C88.** A chunk offset table that is read takes no more memory than there is input behind its position. -/
theorem C88_table (c : Sched) (e : Env) (F : Bytes) (pos w : Nat) (size : Size) (x : Nat × List Nat) (hF : F.length < 2^63)
    (hm : e.maxPos < 2^63) (hs : SaneSizes F) (hp : pos < 2^63) (h : (parseTableR w size c e F { pos := pos }).1 = .ok x) :
    (parseTableR w size c e F { pos := pos }).2.mem.sum ≤ F.length - pos := by
  have h' := (Mem.parseTable (c := c) ⟨hm, hF, hs⟩ w size).run { pos := pos } hp
  rcases hx : parseTableR w size c e F { pos := pos } with ⟨a | k | _ | _, t1⟩ <;> rw [hx] at h h'
  · obtain ⟨-, h', -⟩ := h'
    have h' : t1.mem.sum + (F.length - t1.pos) ≤ 0 + (F.length - pos) := h'
    show t1.mem.sum ≤ _
    omega
  all_goals cases h

/-- **C88.** Input that starts with the head of a `ftyp` of `n` bytes, but is shorter than that: any reader without failures (however many
bytes it returns per call) is asked to fill a buffer for all the bytes claimed, and then reading fails. -/
theorem C88_claimed (c : Sched) (e : Env) (ext : Bool) (n : Nat) (rest : Bytes) (hc : NoFaults c)
    (hn : n < if ext then 2^63 else 2^32) (hr : hlen ext + rest.length < n)
    (hf : hlen ext + rest.length < e.fuel) :
    (readTagVia c e (headBytes ext (cc 'f' 't' 'y' 'p') n ++ rest) 0).1 = .err .io ∧
    (readTagVia c e (headBytes ext (cc 'f' 't' 'y' 'p') n ++ rest) 0).2.mem = [n - hlen ext] := by
  have h8 : 8 ≤ hlen ext := by unfold hlen; split <;> omega
  generalize hF : headBytes ext (cc 'f' 't' 'y' 'p') n ++ rest = F
  have hl : F.length = hlen ext + rest.length := by rw [← hF, List.length_append, headBytes_length]
  have hn' : n < if ext then 2^64 else 2^32 := by cases ext <;> simp at hn ⊢ <;> omega
  have hat : At F 0 (headBytes ext (cc 'f' 't' 'y' 'p') n) := by
    unfold At
    rw [List.drop_zero, ← hF]
    exact ⟨by rw [List.length_append]; omega, List.take_left⟩
  have hp := parseHead_raw (e := e) hat hn' (fun _ => by omega)
  have hE : Spec.Enough c e F := NoFaults.enough hc (by omega)
  have nohit : ∀ {s s' : RSt}, CallsOk c s s' → s'.hit = false := by
    intro s s' h
    cases hh : s'.hit
    · rfl
    · obtain ⟨k, -, -, hk⟩ := h.some hh
      obtain ⟨m, hm⟩ := hc k
      exact absurd hm (hk m)
  -- the head
  have h1 := (RSim.parseHead (c := c) (e := e) (F := F)).run { pos := 0 } rfl
  dsimp only at h1
  rw [hp] at h1
  have hx : ∃ t1, parseHeadR c e F { pos := 0 } = (.ok ⟨⟨ext, n⟩, cc 'f' 't' 'y' 'p'⟩, t1) ∧ t1.pos = hlen ext ∧ t1.mem = [] := by
    have hmem : (parseHeadR c e F { pos := 0 }).2.mem = [] := by
      have aux : ∀ k (t : RSt), (readExactR k c e F t).2.mem = t.mem := fun k t => (readExactLoop_mem c e F e.fuel k [] t).1
      have bind : ∀ {α β : Type} (m : R α) (f : α → R β), (∀ t, (m c e F t).2.mem = t.mem) → (∀ a t, (f a c e F t).2.mem = t.mem) →
          ∀ t, ((m >>= f) c e F t).2.mem = t.mem := by
        intro α β m f h1 h2 t
        show (R.bind m f c e F t).2.mem = _
        have := h1 t
        unfold R.bind
        rcases hx : m c e F t with ⟨a | k | _ | _, t1⟩ <;> rw [hx] at this
        · exact (h2 a t1).trans this
        all_goals exact this
      refine bind _ _ (bind _ _ (aux 4) fun _ _ => rfl) (fun len => bind _ _ (aux 4) fun id => ?_) _
      by_cases h1 : len = 1
      · rw [if_pos h1]
        exact bind _ _ (bind _ _ (aux 8) fun _ _ => rfl) fun _ _ => rfl
      · rw [if_neg h1]
        by_cases h8 : len < 8
        · rw [if_pos h8]; exact fun _ => rfl
        · rw [if_neg h8]; exact fun _ => rfl
    obtain ⟨h2, h3⟩ := h1
    rcases h3 with ⟨-, h3⟩ | ⟨h3, -⟩ | ⟨-, -, h3⟩
    · refine ⟨_, Prod.ext h3.1 rfl, ?_, hmem⟩
      rw [h3.2, Nat.zero_add]
    · rw [nohit h2] at h3; cases h3
    · exact absurd hE h3
  obtain ⟨t1, hx, ht1, hm1⟩ := hx
  -- the brand
  have hcl : (Size.contentLen ⟨ext, n⟩) e = .ok (n - hlen ext) := contentLen_sane (s := ⟨ext, n⟩) (by show hlen ext ≤ n; omega)
  have h2 : readUtf8R (n - hlen ext) c e F t1 = (.err .io, (readExactR (n - hlen ext) c e F { t1 with mem := [n - hlen ext] }).2) := by
    have ha : ¬ 2^63 ≤ n - hlen ext := by cases ext <;> simp at hn <;> omega
    have he : (readExactR (n - hlen ext) c e F { t1 with mem := [n - hlen ext] }).1 = .err .io := by
      obtain ⟨h3, h4⟩ := (RSim.readExact (c := c) (e := e) (F := F) (n - hlen ext)).run { t1 with mem := [n - hlen ext], hit := false } rfl
      have ht : ({ t1 with mem := [n - hlen ext], hit := false } : RSt) = { t1 with mem := [n - hlen ext] } := by
        have hh : t1.hit = false := by
          have := nohit h1.1
          rw [hx] at this
          exact this
        rw [hh]
      rw [ht] at h3 h4
      rcases h4 with ⟨-, h4⟩ | ⟨h4, -⟩ | ⟨-, -, h4⟩
      · unfold Mp4.readExact at h4
        dsimp only at h4
        rw [if_neg (by omega)] at h4
        exact h4
      · rw [nohit h3] at h4; cases h4
      · exact absurd hE h4
    show R.bind (R.bind (R.bind (askR _) fun _ => (allocU8 _).r) fun _ => readExactR _) _ c e F t1 = _
    have e1 : R.bind (askR (n - hlen ext)) (fun _ => (allocU8 (n - hlen ext)).r) c e F t1 = (.ok (), { t1 with mem := [n - hlen ext] }) := by
      unfold R.bind askR E.r allocU8
      dsimp only
      rw [if_neg ha, hm1]
    have e2 : R.bind (R.bind (askR (n - hlen ext)) fun _ => (allocU8 (n - hlen ext)).r) (fun _ => readExactR (n - hlen ext)) c e F t1 =
        readExactR (n - hlen ext) c e F { t1 with mem := [n - hlen ext] } := by
      rw [R.bind.eq_def, e1]
    rw [R.bind.eq_def, e2]
    rcases hy : readExactR (n - hlen ext) c e F { t1 with mem := [n - hlen ext] } with ⟨a | k | _ | _, t2⟩ <;> rw [hy] at he <;> cases he
    rfl
  have h3 : readTagVia c e F 0 = (.err .io, (readExactR (n - hlen ext) c e F { t1 with mem := [n - hlen ext] }).2) := by
    unfold readTagVia
    have e3 : parseFtypR c e F { pos := 0 } = (.err .io, (readExactR (n - hlen ext) c e F { t1 with mem := [n - hlen ext] }).2) := by
      show R.bind parseHeadR _ c e F { pos := 0 } = _
      rw [R.bind.eq_def, hx]
      dsimp only
      rw [if_neg (show ¬ cc 'f' 't' 'y' 'p' ≠ FILETYPE by decide)]
      show R.bind (Size.contentLen ⟨ext, n⟩).r readUtf8R c e F t1 = _
      have e4 : (Size.contentLen ⟨ext, n⟩).r c e F t1 = (.ok (n - hlen ext), t1) := by
        unfold E.r
        rw [hcl]
      rw [R.bind.eq_def, e4]
      exact h2
    show R.bind parseFtypR _ c e F { pos := 0 } = _
    rw [R.bind.eq_def, e3]
  rw [h3]
  exact ⟨rfl, (readExactLoop_mem c e F e.fuel _ [] _).1⟩

/-- A brand whose size is a number of 64 bits, and nothing else. -/
theorem lone_sane {N : Nat} (h1 : 16 ≤ N) (h2 : N < 2^63) : SaneSizes (headBytes true (cc 'f' 't' 'y' 'p') N) := by
  rintro fc n rest ⟨hn, A, hA⟩
  have hl := congrArg List.length hA
  rw [List.length_append, List.length_append, headBytes_length, headBytes_length] at hl
  have hA0 : A = [] := List.length_eq_zero_iff.mp (by simp [hlen] at hl; omega)
  have hr0 : rest = [] := List.length_eq_zero_iff.mp (by simp [hlen] at hl; omega)
  subst hA0 hr0
  rw [List.nil_append, List.append_nil] at hA
  simp only [headBytes, if_true] at hA hn
  have h3 := congrArg beNat (List.append_inj hA rfl).2
  rw [beNat_be64 N (by omega), beNat_be64 n hn] at h3
  omega

/-- **C88, refuted.** Sixteen bytes suffice to request any amount of memory. -/
theorem C88_refuted (K : Nat) (hK : K < 2^57) : ¬ C88_full K := by
  intro h
  obtain ⟨N, hN⟩ : ∃ N, N = 2^62 := ⟨_, rfl⟩
  obtain ⟨c, hf⟩ : ∃ c, NoFaults c := ⟨fun _ => .give 0, fun _ => ⟨0, rfl⟩⟩
  obtain ⟨e, he, hm⟩ : ∃ e : Env, 16 < e.fuel ∧ e.maxPos < 2^63 := ⟨env0, by decide +kernel, by decide +kernel⟩
  have hx : hlen true = 16 := rfl
  have hc := (C88_claimed c e true N [] hf (by rw [if_pos rfl]; omega) (by rw [hx, List.length_nil]; omega)
    (by rw [hx, List.length_nil]; omega)).2
  rw [List.append_nil] at hc
  have hl : (headBytes true (cc 'f' 't' 'y' 'p') N).length = 16 := by rw [headBytes_length, hx]
  have h := h c e (headBytes true (cc 'f' 't' 'y' 'p') N) 0 (by omega) hm (lone_sane (by omega) (by omega))
  rw [hc, hl, hx, List.sum_cons, List.sum_nil] at h
  omega

/-- Eight bytes: a brand of almost 4 GiB. -/
example : headBytes false (cc 'f' 't' 'y' 'p') (2^32 - 1) = [0xff, 0xff, 0xff, 0xff, 0x66, 0x74, 0x79, 0x70] ∧
    readTagVia (fun _ => .give 0) env0 [0xff, 0xff, 0xff, 0xff, 0x66, 0x74, 0x79, 0x70] 0 = (.err .io, ⟨8, 9, false, [2^32 - 9]⟩) := by
  decide +kernel

/-- The example file: the brand, and five values of one byte. -/
example : fileEx.ser.length = 481 ∧ (readTagVia schedEx' env0 fileEx.ser 0).2.mem = [1, 1, 1, 1, 1, 4] := by decide +kernel

/-- Saving: the brand, and the data to be moved. -/
example : fileW.ser.length = 509 ∧ (preparePhaseR atomsW (fun _ => .give 0) env0 fileW.ser { pos := 0 }).2.mem = [11, 4] := by decide +kernel

/-- A table with one entry; and one that claims 1000 entries, of which there is one. -/
example : parseTableR 4 ⟨false, 20⟩ (fun _ => .give 1) env0 ([0, 0, 0, 0] ++ be32 1 ++ be32 507) { pos := 0 } = (.ok (8, [507]), ⟨12, 8, false, [4]⟩) ∧
    parseTableR 4 ⟨false, 4016⟩ (fun _ => .give 1) env0 ([0, 0, 0, 0] ++ be32 1000 ++ be32 507) { pos := 0 } =
      (.err .io, ⟨12, 9, false, [4000]⟩) := by decide +kernel

end Mp4.Props
