import Verif.Proof.Short
import Verif.Props.BufFault
import Verif.Props.WriteMore
/-
C99: writes that are cut short or interrupted.
-/
namespace Mp4.Props
open Mp4 Spec

/-- **C99.** Whatever the file does in each call of reader and writer: what is in the file is what is there if the calls of `write_all` that
met an error fail (after some bytes), and the others write everything at once. The writes are those in one or more parts. The outcome is the
same (or the iterations of the model did not suffice for the interruptions). -/
theorem C99_short (c : Sched) (cap : Nat) (ws : Sched) (e : Env) (F : Bytes) (pos : Nat) (atoms : List AtomData) :
    let x := writeTagShort c cap ws e F pos atoms
    ∃ fl : Faults,
      let y := writeTagFBuf c cap fl e F pos atoms
      y.2.b = x.2.b ∧ y.2.f.file = x.2.f.file ∧ Pieces y.2.f.trace x.2.f.trace ∧
      (y.1 = x.1 ∨ (x.1 = .fuel ∧ e.fuel < intrCount ws x.2.f.tick ∧ y.1 = .err .io)) ∧
      ((∃ k < x.2.f.tick, ws k = .err) → ∃ j < y.2.f.tick, ∃ n, fl.call j = some n) ∧
      (∀ j n, fl.call j = some n → (∃ k < x.2.f.tick, ws k = .err) ∨ e.fuel < intrCount ws x.2.f.tick) := by
  obtain ⟨fl, h1, h2, h3, h4, h5⟩ := writeTagShort_run c cap ws e F pos atoms
  refine ⟨fl, h1, h2.file, h2.trace, ?_, h4, h5⟩
  rcases h3 with h3 | ⟨⟨h3, h6⟩, h7⟩
  · exact .inl h3
  · exact .inr ⟨h3, h6, h7⟩

/-- **C99.** Success means that no call failed and that everything was written: the file is that of the plain save. -/
theorem C99_ok (c : Sched) (cap : Nat) (ws : Sched) (e : Env) (F : Bytes) (pos : Nat) (t : Tag) (hx : Fits e F) (hp : pos < 2^63) :
    let x := writeTagShort c cap ws e F pos t.atoms
    x.1 = .ok () →
      (∀ k < x.2.f.tick, ws k ≠ .err) ∧ (∀ k < x.2.b.tick, c k ≠ .err) ∧ writeTag e F pos t = (.ok (), x.2.f.file) ∧
      Pieces (writeTagTo e F pos t.atoms).2.trace x.2.f.trace := by
  intro x hok
  obtain ⟨fl, h1, h2, h3, h4, h5, h6⟩ := C99_short c cap ws e F pos t.atoms
  change _ = x.2.b at h1
  change _ = x.2.f.file at h2
  change Pieces _ x.2.f.trace at h3
  change (_ = x.1 ∨ (x.1 = .fuel ∧ _)) at h4
  have hy : (writeTagFBuf c cap fl e F pos t.atoms).1 = .ok () := by
    rcases h4 with h4 | ⟨h4, -⟩
    · rw [h4, hok]
    · rw [hok] at h4; cases h4
  obtain ⟨h7, h8, h9, h10, h11⟩ := C96_faults_ok c cap fl e F pos t.atoms hx hp hy
  refine ⟨fun k hk hw => ?_, fun k hk => h8 k (by rw [h1]; exact hk), ?_, by rw [h11]; exact h3⟩
  · obtain ⟨j, hj, n, hn⟩ := h5 ⟨k, hk, hw⟩
    rw [h7 j hj] at hn
    cases hn
  · rw [← h2, ← h10, ← h9]
    rfl

/-- **C99.** Short writes and interruptions alone change nothing: the outcome is that of the plain save, also if that is an error or a panic,
and so is what is in the file. -/
theorem C99_quiet (c : Sched) (cap : Nat) (ws : Sched) (e : Env) (F : Bytes) (pos : Nat) (t : Tag) (hx : Fits e F) (hp : pos < 2^63)
    (hc : NoFaults c) (hF : F.length < e.fuel) :
    let x := writeTagShort c cap ws e F pos t.atoms
    (∀ k < x.2.f.tick, ws k ≠ .err) → intrCount ws x.2.f.tick ≤ e.fuel →
      (x.1, x.2.f.file) = writeTag e F pos t ∧ Pieces (writeTagTo e F pos t.atoms).2.trace x.2.f.trace := by
  intro x hw hi
  obtain ⟨fl, h1, h2, h3, h4, h5, h6⟩ := C99_short c cap ws e F pos t.atoms
  change _ = x.2.f.file at h2
  change Pieces _ x.2.f.trace at h3
  change (_ = x.1 ∨ (x.1 = .fuel ∧ _ < intrCount ws x.2.f.tick ∧ _)) at h4
  change ∀ j n, fl.call j = some n → (∃ k < x.2.f.tick, _) ∨ _ < intrCount ws x.2.f.tick at h6
  clear_value x
  have hfl : ∀ j n, fl.call j ≠ some n := by
    intro j n hj
    rcases h6 j n hj with ⟨k, hk, hk'⟩ | h
    · exact hw k hk hk'
    · omega
  have hy : (writeTagFBuf c cap fl e F pos t.atoms).1 = x.1 := by
    rcases h4 with h4 | ⟨-, h4, -⟩
    · exact h4
    · omega
  obtain ⟨fl', g1, g2, g3, g4, g5, g6, g7, g8⟩ := writeTagFBuf_run (c := c) (cap := cap) (fl := fl) hx hp t.atoms _ rfl
  have hen : Spec.Enough c e F := NoFaults.enough hc hF
  have hhit : (writeTagFBuf c cap fl e F pos t.atoms).2.b.hit = false := g6.good fun k _ _ => hc k
  have hfl' : ∀ j n, fl'.call j ≠ some n := by
    intro j n hj
    rcases g4 j n hj with ⟨k, hk⟩ | h | ⟨-, h⟩
    · exact hfl k n hk
    · rw [hhit] at h; cases h
    · exact h hen
  have hint : Intact fl' (writeTagF fl' e F pos t.atoms).2 := by
    intro k _
    cases hk : fl'.call k with
    | none => rfl
    | some n => exact absurd hk (hfl' k n)
  have hsim : (writeTagF fl' e F pos t.atoms).1 = (writeTagTo e F pos t.atoms).1 ∧
      (writeTagF fl' e F pos t.atoms).2.toWSt = (writeTagTo e F pos t.atoms).2 := by
    rcases writeTagF_sim fl' e F pos t.atoms with ⟨-, -, h7, h8⟩ | ⟨h7, -⟩ | ⟨h7, -⟩ | ⟨h7, -⟩
    · exact ⟨h7, h8⟩
    · rcases (g8 h7).2 with h | ⟨-, h⟩
      · rw [hhit] at h; cases h
      · exact absurd hen h
    · exact absurd hint h7
    · exact absurd hint h7
  have ho : x.1 = (writeTagTo e F pos t.atoms).1 := by
    rcases g3 with g3 | ⟨-, g3, -⟩
    · rw [← hy, ← g3]; exact hsim.1
    · exact absurd hen g3
  refine ⟨Prod.ext ho ?_, ?_⟩
  · rw [← h2, ← g1, hsim.2]
    rfl
  · rw [← hsim.2, g2]
    exact h3

/-- **C99.** A call of the writer that fails is reported, unless saving has already failed for another reason and the failing call is that
of the drop of the buffer (or there were not enough iterations). -/
theorem C99_reported (c : Sched) (cap : Nat) (ws : Sched) (e : Env) (F : Bytes) (pos : Nat) (atoms : List AtomData) (hx : Fits e F)
    (hp : pos < 2^63) :
    let x := writeTagShort c cap ws e F pos atoms
    (∃ k < x.2.f.tick, ws k = .err) →
      x.1 = .err .io ∨ ((writeTagTo e F pos atoms).1 ≠ .ok () ∧ x.1 = (writeTagTo e F pos atoms).1) ∨
      (x.1 = .fuel ∧ (¬ Spec.Enough c e F ∨ e.fuel < intrCount ws x.2.f.tick)) := by
  intro x hk
  obtain ⟨fl, h1, h2, h3, h4, h5, h6⟩ := C99_short c cap ws e F pos atoms
  change (_ = x.1 ∨ (x.1 = .fuel ∧ _ < intrCount ws x.2.f.tick ∧ _)) at h4
  obtain ⟨j, hj, n, hn⟩ := h5 hk
  rcases h4 with h4 | ⟨h4, h7, -⟩
  · rw [← h4]
    rcases (C96_faults_reported c cap fl e F pos atoms hx hp).2 j hj n hn with h | h | ⟨h, h'⟩
    · exact .inl h
    · exact .inr (.inl h)
    · exact .inr (.inr ⟨h, .inl h'⟩)
  · exact .inr (.inr ⟨h4, .inr h7⟩)

/-- **C99.** For a well-formed file: everything in front of `moov` survives, whatever the calls do. -/
theorem C99_front (c : Sched) (cap : Nat) (ws : Sched) (e : Env) (X : Bytes) (f : File) (atoms : List AtomData)
    (h : Writable e X f atoms) (hx : Fits e (X ++ f.ser)) :
    (writeTagShort c cap ws e (X ++ f.ser) X.length atoms).2.f.file.take (X ++ f.ftypBox.ser ++ serL id f.pre).length
      = X ++ f.ftypBox.ser ++ serL id f.pre := by
  obtain ⟨fl, -, h2, -⟩ := C99_short c cap ws e (X ++ f.ser) X.length atoms
  rw [← h2]
  exact C96_faults_front c cap fl e X f atoms h hx

theorem split_written {off b l} (h : Split off b l) : Spec.written l = b.length := by
  induction h with
  | one hb => simp [Spec.written, opBytes]
  | more ha _ ih =>
    simp only [Spec.written, List.map_cons, List.sum_cons, opBytes, List.length_append] at ih ⊢
    omega

theorem pieces_written {A B} (h : Pieces A B) : Spec.written B = Spec.written A := by
  induction h with
  | nil => rfl
  | setLen n _ ih =>
    simp only [Spec.written, List.map_append, List.sum_append] at ih ⊢
    omega
  | @write A B l off b _ hs ih =>
    have := split_written hs
    simp only [Spec.written, List.map_append, List.sum_append, List.map_cons, List.map_nil, List.sum_cons, List.sum_nil, opBytes] at ih this ⊢
    omega

/-- **C99.** No more bytes are written than by the plain save. -/
theorem C99_cost (c : Sched) (cap : Nat) (ws : Sched) (e : Env) (F : Bytes) (pos : Nat) (atoms : List AtomData) (hx : Fits e F)
    (hp : pos < 2^63) :
    written (writeTagShort c cap ws e F pos atoms).2.f.trace ≤ written (writeTagTo e F pos atoms).2.trace := by
  obtain ⟨fl, -, -, h3, -⟩ := C99_short c cap ws e F pos atoms
  rw [pieces_written h3]
  exact (C96_faults_cost c cap fl e F pos atoms hx hp).1

/-- Part of a write that is done in parts. -/
theorem split_partly {off b l} (h : Split off b l) (F : Bytes) : ∀ A op B G, l = A ++ op :: B → Partly op (A.foldl Op.apply F) G →
    Partly (.write off b) F G := by
  induction h generalizing F with
  | @one off b hb =>
    intro A op B G hl hp
    cases A with
    | nil =>
      rw [List.nil_append] at hl
      cases hl
      exact hp
    | cons a A =>
      have := congrArg List.length hl
      simp at this
  | @more off a b l ha h ih =>
    intro A op B G hl hp
    cases A with
    | nil =>
      rw [List.nil_append] at hl
      cases hl
      cases hp with
      | write _ _ _ j =>
        have : a.take j = (a ++ b).take (min j a.length) := by
          rw [List.take_append_of_le_length (Nat.min_le_right _ _)]
          by_cases hj : j ≤ a.length
          · rw [Nat.min_eq_left hj]
          · rw [Nat.min_eq_right (by omega), List.take_length, List.take_of_length_le (by omega)]
        show Partly _ F (Op.apply F (.write off (a.take j)))
        rw [this]
        exact .write F off (a ++ b) _
    | cons a' A =>
      rw [List.cons_append] at hl
      injection hl with hl1 hl2
      subst hl1
      have := ih (Op.apply F (.write off a)) A op B G hl2 hp
      cases this with
      | write _ _ _ j =>
        have hj : a ++ b.take j = (a ++ b).take (a.length + j) := by
          rw [List.take_length_add_append]
        have h2 : Op.apply (Op.apply F (.write off a)) (.write (off + a.length) (b.take j)) = Op.apply F (.write off ((a ++ b).take (a.length + j))) := by
          rw [← hj]
          exact writeAt_append F off a (b.take j)
        rw [h2]
        exact .write F off (a ++ b) _

theorem split_apply {off b l} (h : Split off b l) (F : Bytes) : l.foldl Op.apply F = Op.apply F (.write off b) := by
  induction h generalizing F with
  | one hb => rfl
  | @more off a b l ha h ih =>
    rw [List.foldl_cons, ih]
    exact writeAt_append F off a b

theorem pieces_apply {A B} (h : Pieces A B) (F : Bytes) : B.foldl Op.apply F = A.foldl Op.apply F := by
  induction h with
  | nil => rfl
  | setLen n _ ih => rw [List.foldl_append, List.foldl_append, ih]
  | write _ hs ih => rw [List.foldl_append, List.foldl_append, ih, split_apply hs]; rfl

/-- A process that is stopped while it issues the calls in parts could have been stopped while it issues the calls. -/
theorem pieces_during {F A B} (h : Pieces A B) : ∀ C op D G, B = C ++ op :: D → Partly op (C.foldl Op.apply F) G →
    ∃ C' op' D', A = C' ++ op' :: D' ∧ Partly op' (C'.foldl Op.apply F) G := by
  induction h with
  | nil => intro C op D G h; simp at h
  | @setLen A B n h ih =>
    intro C op D G hc hp
    rcases List.append_eq_append_iff.mp hc with ⟨E, h1, h2⟩ | ⟨E, h1, h2⟩
    · cases E with
      | nil =>
        rw [List.nil_append] at h2
        injection h2 with h2 h3
        subst h2
        rw [h1, List.append_nil, pieces_apply h] at hp
        exact ⟨A, _, [], rfl, hp⟩
      | cons z E =>
        injection h2 with h2 h3
        have := congrArg List.length h3
        simp at this
    · cases E with
      | nil =>
        rw [List.nil_append] at h2
        injection h2 with h2 h3
        subst h2
        rw [List.append_nil] at h1
        rw [← h1, pieces_apply h] at hp
        exact ⟨A, _, [], rfl, hp⟩
      | cons z E =>
        injection h2 with h2 h3
        subst h2
        obtain ⟨C', op', D', h4, h5⟩ := ih C _ E G h1 hp
        exact ⟨C', op', D' ++ [.setLen n], by rw [h4]; simp, h5⟩
  | @write A B l off b h hs ih =>
    intro C op D G hc hp
    have tail : ∀ E, C = B ++ E → l = E ++ op :: D → ∃ C' op' D', A ++ [Op.write off b] = C' ++ op' :: D' ∧ Partly op' (C'.foldl Op.apply F) G := by
      intro E h1 h2
      rw [h1, List.foldl_append, pieces_apply h] at hp
      exact ⟨A, _, [], rfl, split_partly hs _ E op D G h2 hp⟩
    rcases List.append_eq_append_iff.mp hc with ⟨E, h1, h2⟩ | ⟨E, h1, h2⟩
    · exact tail E h1 h2
    · cases E with
      | nil => exact tail [] (by rw [List.append_nil] at h1 ⊢; exact h1.symm) h2.symm
      | cons z E =>
        injection h2 with h2 h3
        subst h2
        obtain ⟨C', op', D', h4, h5⟩ := ih C _ E G h1 hp
        exact ⟨C', op', D' ++ [.write off b], by rw [h4]; simp, h5⟩

theorem pieces_crash {F A B G} (h : Pieces A B) (hG : Crash F B G) : Crash F A G := by
  cases hG with
  | done => rw [pieces_apply h]; exact .done
  | during C op D _ hc hp =>
    obtain ⟨C', op', D', h1, h2⟩ := pieces_during h C op D G hc hp
    exact .during C' op' D' G h1 h2

/-- **C99.** A process that is stopped while it saves, between or within calls that write only part of what they are given, leaves the file
in a state in which it can also be left by a process whose calls write everything. So everything in front of `moov` survives (C50). -/
theorem C99_crash (c : Sched) (cap : Nat) (ws : Sched) (e : Env) (X : Bytes) (f : File) (t : Tag) (h : Writable e X f t.atoms)
    (hx : Fits e (X ++ f.ser)) (hc : NoFaults c) (hF : (X ++ f.ser).length < e.fuel) :
    let x := writeTagShort c cap ws e (X ++ f.ser) X.length t.atoms
    (∀ k < x.2.f.tick, ws k ≠ .err) → intrCount ws x.2.f.tick ≤ e.fuel → ∀ G, Crash (X ++ f.ser) x.2.f.trace G →
      Crash (X ++ f.ser) (writeTagTo e (X ++ f.ser) X.length t.atoms).2.trace G ∧
      G.take (X ++ f.ftypBox.ser ++ serL id f.pre).length = X ++ f.ftypBox.ser ++ serL id f.pre := by
  intro x hw hi G hG
  have hp : X.length < 2^63 := by
    have := hx.file
    rw [List.length_append] at this
    omega
  obtain ⟨-, h2⟩ := C99_quiet c cap ws e (X ++ f.ser) X.length t hx hp hc hF hw hi
  have h3 := pieces_crash h2 hG
  obtain ⟨s, h4, -, h5⟩ := C50_crash e X f t.atoms h
  rw [h4] at h3 ⊢
  exact ⟨h3, h5 G h3⟩

theorem split_length {off b l} (h : Split off b l) : l.length ≤ b.length := by
  induction h with
  | one hb => exact List.length_pos_iff.mpr hb
  | more ha _ ih =>
    have := List.length_pos_iff.mpr ha
    rw [List.length_cons, List.length_append]
    omega

theorem pieces_length {A B} (h : Pieces A B) : B.length ≤ Spec.written A + A.length := by
  induction h with
  | nil => exact Nat.le_refl _
  | setLen n _ ih =>
    simp only [Spec.written, List.map_append, List.sum_append, List.length_append, List.length_singleton] at ih ⊢
    omega
  | write _ hs ih =>
    have := split_length hs
    simp only [Spec.written, List.map_append, List.sum_append, List.length_append, List.length_singleton, List.map_cons, List.map_nil,
      List.sum_cons, List.sum_nil, opBytes] at ih ⊢
    omega

/-- **C99.** The number of calls: every call writes a part, sets the length, is interrupted or fails, and there are at most as many parts as
bytes. -/
theorem C99_calls (c : Sched) (cap : Nat) (ws : Sched) (e : Env) (F : Bytes) (pos : Nat) (atoms : List AtomData) (hx : Fits e F)
    (hp : pos < 2^63) :
    let x := writeTagShort c cap ws e F pos atoms
    let calls := (writeTagTo e F pos atoms).2.trace
    x.2.f.tick = x.2.f.trace.length + wasted ws x.2.f.tick ∧ x.2.f.trace.length ≤ written calls + calls.length + 1 := by
  refine ⟨writeTagShort_counted c cap ws e F pos atoms, ?_⟩
  obtain ⟨fl, -, -, h3, -⟩ := C99_short c cap ws e F pos atoms
  have h4 := pieces_length h3
  obtain ⟨h5, h6⟩ := C96_faults_cost c cap fl e F pos atoms hx hp
  omega

/-- **C99**, by path. -/
theorem C99_path (c : Sched) (cap : Nat) (ws : Sched) (e : Env) (fs : Fs) (p : String) (t : Tag) (hc : NoFaults c)
    (hx : ∀ n, Fits e (fs.data n) ∧ (fs.data n).length < e.fuel) (hw : ∀ k, ws k ≠ .err) (hi : ∀ k, intrCount ws k ≤ e.fuel) :
    writeToPathShort c cap ws e fs p t = writeToPath e fs p t := by
  unfold writeToPathShort writeToPath
  cases fs.node p with
  | none => rfl
  | some n =>
    dsimp only
    split
    · obtain ⟨h, -⟩ := C99_quiet c cap ws e (fs.data n) 0 t (hx n).1 (by omega) hc (hx n).2 (fun k _ => hw k) (hi _)
      rw [← h]
    · rfl

/-- **C99**, dumping. What reaches the writer is a prefix of the dump. Success means that no call failed and that it is all of it. A failing
call is reported. Without one, outcome and bytes are those of the plain dump. -/
theorem C99_dump (ws : Sched) (e : Env) (t : Tag) :
    let x := dumpTagShort ws e t
    x.2.file <+: (dumpTag e t).1 ∧
    (x.1 = .ok () → dumpTag e t = (x.2.file, .ok ()) ∧ ∀ k < x.2.tick, ws k ≠ .err) ∧
    ((∃ k < x.2.tick, ws k = .err) → x.1 = .err .io) ∧
    ((∀ k < x.2.tick, ws k ≠ .err) → intrCount ws x.2.tick ≤ e.fuel → (x.2.file, x.1) = dumpTag e t) := by
  have hd : dumpTag e t = ((dumpWr t.atoms e).1.flatten, (dumpWr t.atoms e).2) := rfl
  rw [hd]
  unfold dumpTagShort
  dsimp only
  generalize dumpWr t.atoms e = w
  obtain ⟨a, rest, h⟩ := sAll_dumped ws e w.1 { file := [], cur := 0 } rfl
  generalize sAll sSysWrite w.1 ws e { file := [], cur := 0 } = r at *
  obtain ⟨o, s⟩ := r
  have hdat := h.data
  have hf : s.file = a := h.file
  have hpre : s.file <+: w.1.flatten := ⟨rest, by rw [hf, hdat]⟩
  rcases h.out with ⟨h1, h2, h3⟩ | ⟨h1, h2, h3⟩ | ⟨h1, h2, h3⟩
  · change o = .ok () at h1
    subst h1 h2
    rw [List.append_nil] at hdat
    dsimp only
    refine ⟨hpre, fun h4 => ⟨by rw [hf, hdat, h4], fun k hk => h3 k (Nat.zero_le _) hk⟩, fun ⟨k, hk, hk'⟩ => absurd hk' (h3 k (Nat.zero_le _) hk),
      fun _ _ => by rw [hf, hdat]⟩
  · change o = .err .io at h1
    subst h1
    dsimp only at h2 h3 ⊢
    exact ⟨hpre, nofun, fun _ => rfl, fun h4 => absurd h3 (h4 _ (by omega))⟩
  · change o = .fuel at h1
    subst h1
    dsimp only at h2 h3 ⊢
    exact ⟨hpre, nofun, fun ⟨k, hk, hk'⟩ => absurd hk' (h2 k (Nat.zero_le _) hk), fun _ h4 => by omega⟩

/-- A file that takes one byte per call: 150 calls instead of 9, and the same file. -/
example : let x := writeTagShort (fun _ => .give 100000) 8192 (fun _ => .give 0) env0 fileW.ser 0 atomsW
    x.1 = .ok () ∧ x.2.f.tick = 150 ∧ x.2.f.trace.length = 150 ∧ x.2.f.file = (fileW.put atomsW).ser := by decide +kernel

/-- Every other call is interrupted, and the others take at most ten bytes. -/
example : let x := writeTagShort (fun _ => .give 100000) 8192 (fun k => if k % 2 = 0 then .intr else .give 9) env0 fileW.ser 0 atomsW
    x.1 = .ok () ∧ x.2.f.tick = 40 ∧ x.2.f.trace.length = 20 ∧ x.2.f.file = (fileW.put atomsW).ser := by decide +kernel

/-- The second entry is cut short after five bytes, interrupted, and then fails: an error. The drop of the buffer writes the remaining three
bytes. -/
example : let x := writeTagShort (fun _ => .give 100000) 8192 (fun k => if k = 3 then .err else if k = 2 then .intr else .give 4) env0 fileW.ser 0 atomsW
    x.1 = .err .io ∧ x.2.f.tick = 5 ∧
    x.2.f.trace = [.write 249 [0, 0, 1, 204], .write 269 [0, 0, 0, 0, 0], .write 274 [0, 1, 205]] := by decide +kernel

/-- A file whose calls are interrupted for ever: the iterations do not suffice, and nothing is written. -/
example : let x := writeTagShort (fun _ => .give 100000) 8192 (fun _ => .intr) { env0 with fuel := 600 } fileW.ser 0 atomsW
    x.1 = .fuel ∧ x.2.f.trace = [] ∧ 600 < intrCount (fun _ => .intr) x.2.f.tick := by decide +kernel

/-- The hypotheses of `C99_quiet` and `C99_crash`. -/
example : Fits env0 fileW.ser ∧ NoFaults (fun _ => .give 100000) ∧ fileW.ser.length < env0.fuel ∧ Writable env0 [] fileW atomsW :=
  ⟨⟨by decide +kernel, by decide +kernel, by decide +kernel⟩, fun _ => ⟨_, rfl⟩, by decide +kernel, fileW_writable⟩

/-- A writer that takes at most seven bytes per call, and is interrupted in every third one: all of the dump; failing in the tenth call: a
part of it. -/
example : let dump := dumpTag env0 ⟨[], {}, atomsW⟩
    let x := dumpTagShort (fun k => if k % 3 = 2 then .intr else .give 6) env0 ⟨[], {}, atomsW⟩
    let y := dumpTagShort (fun k => if k % 3 = 2 then .intr else if k = 9 then .err else .give 6) env0 ⟨[], {}, atomsW⟩
    x.1 = .ok () ∧ x.2.file = dump.1 ∧ y.1 = .err .io ∧ y.2.file.length < dump.1.length ∧ y.2.file ≠ [] := by decide +kernel

end Mp4.Props
