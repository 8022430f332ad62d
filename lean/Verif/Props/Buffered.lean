import Verif.Proof.Buffered
import Verif.Props.Reader
import Verif.Props.Memory
import Verif.Props.Calls
/-
Reading through a `BufReader`, as the functions that take a path and the one that saves do: C96.
-/
namespace Mp4.Props
open Mp4 Spec

theorem fresh_ok {F : Bytes} {pos : Nat} (h : pos < 2^63) : BSt.Ok F { cur := pos } := BStep.ok_nil rfl h

/-- **C96.** Whatever the file does in each call, whatever the capacity of the buffer: the outcome of reading through a
`BufReader` is that of reading from memory, or an error of the file is returned as `ErrorKind::Io`, or the iterations of the
model did not suffice for the interruptions. No error is swallowed, and none is made up. -/
theorem C96_read (c : Sched) (cap : Nat) (e : Env) (F : Bytes) (pos : Nat) (hx : Fits e F) (hp : pos < 2^63) :
    let x := readTagBuf c cap e F { cur := pos }
    (x.1 = readTag e F pos ∨ (x.2.hit = true ∧ x.1 = .err .io) ∨ (x.1 = .fuel ∧ ¬ Spec.Enough c e F)) ∧
    ((∃ k < x.2.tick, c k = .err) → x.1 = .err .io) ∧
    ((∀ k < x.2.tick, ∃ n, c k = .give n) → x.2.hit = false) := by
  intro x
  obtain ⟨h1, h2, h3⟩ := (BSim.readTag (c := c) (cap := cap)).same hx (fun _ => RSim.readTag) { cur := pos } (fresh_ok hp) rfl
  change ((x.2.hit = false ∧ AgreeBuf x (readTagP e F pos)) ∨ (x.2.hit = true ∧ x.1 = .err .io) ∨ (x.2.hit = false ∧ x.1 = .fuel ∧ _)) at h1
  change x.2.hit = false → ∀ k, 0 ≤ k → k < x.2.tick → _ at h2
  change (∀ k, 0 ≤ k → k < x.2.tick → ∃ n, c k = .give n) → x.2.hit = false at h3
  clear_value x
  refine ⟨?_, fun ⟨k, hk, hc⟩ => ?_, fun h => h3 fun k _ hk => h k hk⟩
  · rcases h1 with ⟨-, h⟩ | h | ⟨-, h⟩
    · left
      unfold readTag
      generalize readTagP e F pos = o at h ⊢
      rcases o with ⟨a, q⟩ | _ | _ | _
      · exact h.1
      all_goals exact h
    · exact .inr (.inl h)
    · exact .inr (.inr h)
  · have hh : x.2.hit = true := by
      cases hh : x.2.hit
      · exact absurd hc (h2 hh k (Nat.zero_le _) hk)
      · rfl
    rcases h1 with ⟨h, -⟩ | ⟨-, h⟩ | ⟨h, -⟩
    · rw [hh] at h; cases h
    · exact h
    · rw [hh] at h; cases h

/-- **C96.** `read_from_path` of a file that reports no errors: however the data is split over the `read` calls and whatever
the capacity of the buffer, the tag is the one in the file. -/
theorem C96_path (c : Sched) (cap : Nat) (e : Env) (fs : Fs) (p : String) (hc : NoFaults c)
    (hx : ∀ n, Fits e (fs.data n) ∧ (fs.data n).length < e.fuel) : readFromPathBuf c cap e fs p = readFromPath e fs p := by
  unfold readFromPathBuf readFromPath
  cases fs.node p with
  | none => rfl
  | some n =>
    dsimp only
    split
    · obtain ⟨h1, -, h3⟩ := C96_read c cap e (fs.data n) 0 (hx n).1 (by omega)
      rcases h1 with h | ⟨h, -⟩ | ⟨-, h⟩
      · exact h
      · rw [h3 fun k _ => hc k] at h; cases h
      · exact absurd (NoFaults.enough hc (hx n).2) h
    · rfl

/-- **C96.** The search of a save, and reading the data that is moved, through the `BufReader`. -/
theorem C96_search (c : Sched) (cap : Nat) (e : Env) (F : Bytes) (pos : Nat) (atoms : List AtomData) (hx : Fits e F) (hp : pos < 2^63) :
    let x := preparePhaseBuf atoms c cap e F { cur := pos }
    ((x.2.hit = false ∧ match preparePhase atoms e F pos with
        | .ok (a, _) => x.1 = .ok a
        | .err k => x.1 = .err k
        | .panic => x.1 = .panic
        | .fuel => x.1 = .fuel) ∨ (x.2.hit = true ∧ x.1 = .err .io) ∨ (x.1 = .fuel ∧ ¬ Spec.Enough c e F)) ∧
    ((∃ k < x.2.tick, c k = .err) → x.1 = .err .io) ∧
    ((∀ k < x.2.tick, ∃ n, c k = .give n) → x.2.hit = false) := by
  intro x
  obtain ⟨h1, h2, h3⟩ := (BSim.preparePhase (c := c) (cap := cap) atoms).same hx (fun _ => RSim.preparePhase atoms) { cur := pos } (fresh_ok hp) rfl
  change ((x.2.hit = false ∧ AgreeBuf x (preparePhase atoms e F pos)) ∨ (x.2.hit = true ∧ x.1 = .err .io) ∨ (x.2.hit = false ∧ x.1 = .fuel ∧ _)) at h1
  change x.2.hit = false → ∀ k, 0 ≤ k → k < x.2.tick → _ at h2
  change (∀ k, 0 ≤ k → k < x.2.tick → ∃ n, c k = .give n) → x.2.hit = false at h3
  clear_value x
  refine ⟨?_, fun ⟨k, hk, hc⟩ => ?_, fun h => h3 fun k _ hk => h k hk⟩
  · rcases h1 with ⟨h0, h⟩ | h | ⟨-, h⟩
    · refine .inl ⟨h0, ?_⟩
      generalize preparePhase atoms e F pos = o at h ⊢
      rcases o with ⟨a, q⟩ | _ | _ | _
      · exact h.1
      all_goals exact h
    · exact .inr (.inl h)
    · exact .inr (.inr h)
  · have hh : x.2.hit = true := by
      cases hh : x.2.hit
      · exact absurd hc (h2 hh k (Nat.zero_le _) hk)
      · rfl
    rcases h1 with ⟨h, -⟩ | ⟨-, h⟩ | ⟨h, -⟩
    · rw [hh] at h; cases h
    · exact h
    · rw [hh] at h; cases h

/-- **C96.** The tables are read while the file is being written, through the same `BufReader`: its buffer may hold bytes that
are not in the file any more, and its cursor, which it shares with the writer, may be anywhere. Because of the seek in front of
each table, what is read is what is in the file now. -/
theorem C96_table (c : Sched) (cap : Nat) (e : Env) (F : Bytes) (s : BSt) (pos w : Nat) (size : Size) (hx : Fits e F) (hh : s.hit = false) :
    let x := (do seekStartBuf pos; parseTableBuf w size) c cap e F s
    (match (do seekStart pos; parseTable w size) e F 0 with
      | .ok (a, _) => x.1 = .ok a
      | .err k => x.1 = .err k
      | .panic => x.1 = .panic
      | .fuel => x.1 = .fuel) ∨ (x.2.hit = true ∧ x.1 = .err .io) ∨ (x.1 = .fuel ∧ ¬ Spec.Enough c e F) := by
  intro x
  have hx' : x = B.bind (B.bind (innerSeek pos) fun _ => pure ()) (fun _ => parseTableBuf w size) c cap e F s := rfl
  clear_value x
  have hy : (do seekStart pos; parseTable w size : P (Nat × List Nat)) e F 0 = P.bind (seekStart pos) (fun _ => parseTable w size) e F 0 := rfl
  rw [hy]
  clear hy
  unfold B.bind innerSeek at hx'
  unfold P.bind seekStart
  rcases hc : c s.tick with k | _ | _ <;> rw [hc] at hx' <;> dsimp only at hx'
  · by_cases hp : pos ≤ e.maxPos
    · rw [if_pos ⟨by omega, by omega⟩] at hx'
      change x = parseTableBuf w size c cap e F { s with cur := pos, buf := [], tick := s.tick + 1 } at hx'
      rw [if_pos hp]
      have hl := hx.pos
      obtain ⟨h1, -, -⟩ := (BSim.parseTable (c := c) (cap := cap) w size).same hx (fun _ => RSim.parseTable w size)
        { s with cur := pos, buf := [], tick := s.tick + 1 } (BStep.ok_nil rfl (by show pos < 2^63; omega)) hh
      rw [← hx'] at h1
      change (_ ∧ AgreeBuf x (parseTable w size e F pos)) ∨ _ at h1
      dsimp only
      rcases h1 with ⟨-, h⟩ | h | ⟨-, h⟩
      · left
        generalize parseTable w size e F pos = o at h ⊢
        rcases o with ⟨a, q⟩ | _ | _ | _
        · exact h.1
        all_goals exact h
      · exact .inr (.inl h)
      · exact .inr (.inr h)
    · rw [if_neg (by omega)] at hx'
      rw [if_neg hp]
      subst hx'
      exact .inl rfl
  all_goals
    subst hx'
    exact .inr (.inl ⟨rfl, rfl⟩)

/-- **C96.** The buffers requested for what is read (C88) are the same as without a `BufReader`. -/
theorem C96_memory (c : Sched) (cap : Nat) (e : Env) (F : Bytes) (pos : Nat) (t : Tag) (hx : Fits e F) (hp : pos < 2^63) (hs : SaneSizes F)
    (h : (readTagBuf c cap e F { cur := pos }).1 = .ok t) : (readTagBuf c cap e F { cur := pos }).2.mem.sum ≤ F.length := by
  obtain ⟨c', k, h1, -⟩ := (BSim.readTag (c := c) (cap := cap)).reader hx { cur := pos } (fresh_ok hp)
  have h2 : readTagVia c' e F pos = ((readTagBuf c cap e F { cur := pos }).1, (readTagBuf c cap e F { cur := pos }).2.plain k) := h1
  have h3 := C88_ok c' e F pos t hx.file hx.pos hs (by rw [h2]; exact h)
  rw [h2] at h3
  exact h3

theorem buffered_calls {c : Sched} {cap : Nat} {e : Env} {F : Bytes} {α} {b : B α} {r : R α} (h : BSim c cap e F b r) (hx : Fits e F)
    (pos : Nat) (hp : pos < 2^63) (N : Nat) (hN : ∀ c', busy c' (r c' e F { pos := pos }).2.tick ≤ N) :
    busy c (b c cap e F { cur := pos }).2.tick ≤ N + 1 ∧
    (∀ a, (b c cap e F { cur := pos }).1 = .ok a → busy c (b c cap e F { cur := pos }).2.tick ≤ N) := by
  obtain ⟨c', k, h1, -, -, -, -, h2⟩ := h.reader hx { cur := pos } (fresh_ok hp)
  have h3 := hN c'
  have h4 : r c' e F { pos := pos } = _ := h1
  rw [h4] at h3
  change busy c' k ≤ N at h3
  have h0 : intrCount c 0 = 0 := rfl
  dsimp only at h2
  rw [h0] at h2
  generalize b c cap e F { cur := pos } = x at *
  unfold busy at h2 h3 ⊢
  refine ⟨?_, fun a ha => ?_⟩
  · split at h2 <;> omega
  · rw [ha] at h2
    dsimp only at h2
    omega

/-- **C96.** With overflow checks, the calls that reach the file (apart from repeated ones) are at most four per byte, as without
buffer (C87); there may be one more if reading fails. -/
theorem C96_calls (c : Sched) (cap : Nat) (e : Env) (F : Bytes) (pos : Nat) (hx : Fits e F) (hp : pos < 2^63) (hc : e.checked = true)
    (hs : SaneSizes F) : busy c (readTagBuf c cap e F { cur := pos }).2.tick ≤ 4 * (F.length - pos) + 2 := by
  have := (buffered_calls (BSim.readTag (c := c) (cap := cap)) hx pos hp (4 * (F.length - pos) + 1)
    fun c' => C87_checked c' e F pos hc hx.file hx.pos hs).1
  omega

/-- **C96.** In all builds, the search of a save, including the data that is moved: at most five calls per byte. -/
theorem C96_search_calls (c : Sched) (cap : Nat) (e : Env) (F : Bytes) (pos : Nat) (atoms : List AtomData) (hx : Fits e F) (hp : pos < 2^63)
    (hs : SaneSizes F) : busy c (preparePhaseBuf atoms c cap e F { cur := pos }).2.tick ≤ 5 * F.length + 2 := by
  have := (buffered_calls (BSim.preparePhase (c := c) (cap := cap) atoms) hx pos hp (5 * F.length + 1)
    fun c' => C87_write c' e F pos atoms hx.file hx.pos hs).1
  omega

/-- A file that returns at most three bytes per call, a buffer of eleven bytes. -/
example : (readTagBuf (fun _ => .give 2) 11 env0 fileEx.ser { cur := 0 }).1 = .ok tagEx := by decide +kernel

/-- As many bytes as asked for, into a buffer with the capacity of std. -/
example : (readTagBuf (fun _ => .give 100000) 8192 env0 fileEx.ser { cur := 0 }).1 = .ok tagEx := by decide +kernel

/-- 49 calls reach the file; without buffer there are 135. -/
example : (readTagBuf (fun _ => .give 100000) 8192 env0 fileEx.ser { cur := 0 }).2.tick = 49 ∧
    (readTagVia (fun _ => .give 100000) env0 fileEx.ser 0).2.tick = 135 := by decide +kernel

/-- The file fails in call 20. -/
example : (readTagBuf (fun k => if k = 20 then .err else .give 3) 11 env0 fileEx.ser { cur := 0 }).1 = .err .io := by decide +kernel

/-- A buffer with the old table, whose entry has been overwritten in the file since: with the seek the new entry is read. -/
def staleSt : BSt := { cur := 12, buf := [0, 0, 0, 0] ++ be32 1 ++ be32 507 }
def tableNow : Bytes := [0, 0, 0, 0] ++ be32 1 ++ be32 600

example : ((do seekStartBuf 0; parseTableBuf 4 ⟨false, 20⟩) (fun _ => .give 100) 64 env0 tableNow staleSt).1 = .ok (8, [600]) := by
  decide +kernel

/-- Without the seek, the rest of the buffer would be taken for the file until the next seek: the head of the old table. -/
example : ((do let b ← readExactBuf 12; pure b) (fun _ => .give 100) 64 env0 tableNow staleSt).1 = .ok ([0, 0, 0, 0] ++ be32 1 ++ be32 507) := by
  decide +kernel

end Mp4.Props
