import Verif.Proof.Calls
/-
The buffers requested while reading.
-/
namespace Mp4
open Spec

section
variable {c : Sched} {e : Env} {F : Bytes} {α β : Type}

theorem R.bind_ok_inv {m : R α} {f : α → R β} {t t' : RSt} {b : β} (h : (m >>= f) c e F t = (.ok b, t')) :
    ∃ a t1, m c e F t = (.ok a, t1) ∧ f a c e F t1 = (.ok b, t') := by
  change R.bind m f c e F t = _ at h
  unfold R.bind at h
  rcases hx : m c e F t with ⟨a | k | _ | _, t1⟩ <;> rw [hx] at h
  · exact ⟨a, t1, rfl, h⟩
  all_goals
    injection h with h _
    cases h

/-! ### Parts that request nothing -/

/-- Nothing is requested, and positions stay below 2^63. -/
structure Calm (c : Sched) (e : Env) (F : Bytes) (m : R α) : Prop where
  run : ∀ t, (m c e F t).2.mem = t.mem ∧ (t.pos < 2^63 → (m c e F t).2.pos < 2^63)

namespace Calm

theorem pure (a : α) : Calm c e F (Pure.pure a : R α) := ⟨fun _ => ⟨rfl, id⟩⟩
theorem fail (k : ErrKind) : Calm c e F (failR k : R α) := ⟨fun _ => ⟨rfl, id⟩⟩
theorem outOfFuel : Calm c e F (outOfFuelR : R α) := ⟨fun _ => ⟨rfl, id⟩⟩
theorem getFuel : Calm c e F getFuelR := ⟨fun _ => ⟨rfl, id⟩⟩
theorem E (m : E α) : Calm c e F m.r := ⟨fun _ => ⟨rfl, id⟩⟩

theorem bind {m : R α} {f : α → R β} (h : Calm c e F m) (hf : ∀ a, Calm c e F (f a)) : Calm c e F (m >>= f) := by
  refine ⟨fun t => ?_⟩
  have h := h.run t
  show (R.bind m f c e F t).2.mem = _ ∧ (_ → (R.bind m f c e F t).2.pos < _)
  unfold R.bind
  rcases hx : m c e F t with ⟨a | k | _ | _, t1⟩ <;> rw [hx] at h
  · have h' := (hf a).run t1
    exact ⟨h'.1.trans h.1, fun ht => h'.2 (h.2 ht)⟩
  all_goals exact h

theorem ite {q : Prop} [Decidable q] {m m' : R α} (h : Calm c e F m) (h' : Calm c e F m') : Calm c e F (if q then m else m') := by
  split
  · exact h
  · exact h'

theorem seekIn (f : RSt → Nat) (hf : ∀ t : RSt, t.pos < 2^63 → f t < 2^63) : Calm c e F fun c e F s => seekInR (f s) c e F s := by
  refine ⟨fun t => ?_⟩
  unfold seekInR
  split
  · exact ⟨rfl, hf t⟩
  · exact ⟨rfl, id⟩

theorem tell : Calm c e F tellR := seekIn (fun s => s.pos) fun _ h => h
theorem seekEnd (hs : SaneC e F) : Calm c e F seekEndR := by
  refine ⟨fun t => ?_⟩
  exact (seekIn (c := c) (e := e) (F := F) (fun _ => F.length) fun _ _ => hs.len).run t

theorem seek (hs : SaneC e F) (x : Int) : Calm c e F (seekR x) := by
  refine ⟨fun t => ?_⟩
  unfold seekR
  have := hs.max
  split
  · split
    · exact ⟨rfl, fun _ => by show x.toNat < 2^63; omega⟩
    · exact ⟨rfl, id⟩
  · exact ⟨rfl, id⟩

theorem seekCur (hs : SaneC e F) (n : Int) : Calm c e F (seekCurR n) :=
  ⟨fun t => (bind (seek hs (t.pos + n)) fun _ => pure ()).run t⟩
theorem seekStart (hs : SaneC e F) (n : Nat) : Calm c e F (seekStartR n) := bind (seek hs n) fun _ => pure ()

end Calm

/-- `read_exact` requests nothing, and gives nothing or fails with an Io error (or takes too long). -/
theorem readExactLoop_mem (c : Sched) (e : Env) (F : Bytes) : ∀ (f n : Nat) (acc : Bytes) (t : RSt),
    (readExactLoop f n acc c e F t).2.mem = t.mem ∧ t.pos ≤ (readExactLoop f n acc c e F t).2.pos ∧
    (readExactLoop f n acc c e F t).2.pos ≤ max t.pos F.length ∧
    ((∃ b, (readExactLoop f n acc c e F t).1 = .ok b) ∨ (readExactLoop f n acc c e F t).1 = .err .io ∨
      (readExactLoop f n acc c e F t).1 = .fuel)
  | 0, n, acc, t => ⟨rfl, Nat.le_refl _, by show t.pos ≤ _; omega, .inr (.inr rfl)⟩
  | f+1, n, acc, t => by
    unfold readExactLoop
    by_cases hn : n = 0
    · rw [if_pos hn]
      exact ⟨rfl, Nat.le_refl _, by show t.pos ≤ _; omega, .inl ⟨_, rfl⟩⟩
    · rw [if_neg hn]
      rcases hc : c t.tick with k | _ | _ <;> dsimp only
      · have hl : ((F.drop t.pos).take (min (k + 1) n)).length ≤ F.length - t.pos := by
          rw [List.length_take, List.length_drop]; omega
        split
        · exact ⟨rfl, by show t.pos ≤ t.pos + _; omega, by show t.pos + _ ≤ _; omega, .inr (.inl rfl)⟩
        · have ih := readExactLoop_mem c e F f (n - ((F.drop t.pos).take (min (k + 1) n)).length)
            (acc ++ (F.drop t.pos).take (min (k + 1) n))
            { t with pos := t.pos + ((F.drop t.pos).take (min (k + 1) n)).length, tick := t.tick + 1 }
          obtain ⟨h1, h2, h3, h4⟩ := ih
          dsimp only at h1 h2 h3
          exact ⟨h1, by omega, by omega, h4⟩
      · exact readExactLoop_mem c e F f n acc { t with tick := t.tick + 1 }
      · exact ⟨rfl, Nat.le_refl _, by show t.pos ≤ _; omega, .inr (.inl rfl)⟩

theorem readToEndLoop_mem (c : Sched) (e : Env) (F : Bytes) : ∀ (f : Nat) (acc : Bytes) (t : RSt),
    (readToEndLoop f acc c e F t).2.mem = t.mem ∧ (readToEndLoop f acc c e F t).2.pos ≤ max t.pos F.length
  | 0, acc, t => ⟨rfl, by show t.pos ≤ _; omega⟩
  | f+1, acc, t => by
    unfold readToEndLoop
    rcases hc : c t.tick with k | _ | _ <;> dsimp only
    · have hl : ((F.drop t.pos).take (k + 1)).length ≤ F.length - t.pos := by
        rw [List.length_take, List.length_drop]; omega
      split
      · exact ⟨rfl, by show t.pos + _ ≤ _; omega⟩
      · obtain ⟨h1, h2⟩ := readToEndLoop_mem c e F f (acc ++ (F.drop t.pos).take (k + 1))
          { t with pos := t.pos + ((F.drop t.pos).take (k + 1)).length, tick := t.tick + 1 }
        dsimp only at h1 h2
        exact ⟨h1, by omega⟩
    · exact readToEndLoop_mem c e F f acc { t with tick := t.tick + 1 }
    · exact ⟨rfl, by show t.pos ≤ _; omega⟩

theorem Calm.readExact (hs : SaneC e F) (n : Nat) : Calm c e F (readExactR n) := by
  refine ⟨fun t => ?_⟩
  obtain ⟨h1, _, h3, _⟩ := readExactLoop_mem c e F e.fuel n [] t
  have := hs.len
  exact ⟨h1, fun h => by show (readExactLoop _ _ _ _ _ _ _).2.pos < _; omega⟩

theorem Calm.readToEnd (hs : SaneC e F) : Calm c e F readToEndR := by
  refine ⟨fun t => ?_⟩
  obtain ⟨h1, h3⟩ := readToEndLoop_mem c e F e.fuel [] t
  have := hs.len
  exact ⟨h1, fun h => by show (readToEndLoop _ _ _ _ _ _).2.pos < _; omega⟩

theorem Calm.bind2 {γ} {m : R (α × β)} {f : α × β → R γ} (h : Calm c e F m) (hf : ∀ a b, Calm c e F (f (a, b))) :
    Calm c e F (m >>= f) := .bind h fun ⟨a, b⟩ => hf a b

macro "calm" hs:term "with" "[" ts:term,* "]" : tactic =>
  `(tactic| repeat' (first
    | with_reducible exact Calm.pure _
    | with_reducible exact Calm.fail _
    | with_reducible exact Calm.E _
    | with_reducible exact Calm.outOfFuel
    | with_reducible exact Calm.getFuel
    | with_reducible exact Calm.tell
    | with_reducible exact Calm.seekEnd $hs
    | with_reducible exact Calm.seekCur $hs _
    | with_reducible exact Calm.seekStart $hs _
    | with_reducible exact Calm.readExact $hs _
    | with_reducible exact Calm.readToEnd $hs
    $[| with_reducible exact $ts]*
    | with_reducible apply Calm.ite
    | with_reducible apply Calm.bind2
    | with_reducible apply Calm.bind
    | intro _
    | dsimp only))

theorem Calm.readU8 (hs : SaneC e F) : Calm c e F readU8R := by unfold readU8R; calm hs with []
theorem Calm.readU16 (hs : SaneC e F) : Calm c e F readU16R := by unfold readU16R; calm hs with []
theorem Calm.readU32 (hs : SaneC e F) : Calm c e F readU32R := by unfold readU32R; calm hs with []
theorem Calm.readU64 (hs : SaneC e F) : Calm c e F readU64R := by unfold readU64R; calm hs with []
theorem Calm.remainingStreamLen (hs : SaneC e F) : Calm c e F remainingStreamLenR := by unfold remainingStreamLenR; calm hs with []
theorem Calm.parseHead (hs : SaneC e F) : Calm c e F parseHeadR := by
  unfold parseHeadR; calm hs with [Calm.readU32 hs, Calm.readU64 hs]
theorem Calm.parseFullHead (hs : SaneC e F) : Calm c e F parseFullHeadR := by unfold parseFullHeadR; calm hs with [Calm.readU8 hs]
theorem Calm.findBounds (n : Size) : Calm c e F (findBoundsR n) := by
  unfold findBoundsR; exact .bind .tell fun _ => .bind (.E _) fun _ => .pure _
theorem Calm.seekToEnd (hs : SaneC e F) (b : AtomBounds) : Calm c e F (seekToEndR b) := by unfold seekToEndR; calm hs with []
theorem Calm.skipContent (hs : SaneC e F) (b : Head) : Calm c e F (skipContentR b) := by unfold skipContentR; calm hs with []
theorem Calm.walk (hs : SaneC e F) {σ : Type} {l : Mp4.E Nat} {g : σ → Head → R σ} (h : ∀ s x, Calm c e F (g s x)) (n : Nat) :
    ∀ s q, Calm c e F (walkR l g n s q) := by
  induction n with
  | zero => intro s q; exact .outOfFuel
  | succ n ih => intro s q; unfold walkR; calm hs with [Calm.parseHead hs, h _ _, ih _ _]
theorem Calm.loop (hs : SaneC e F) {σ : Type} {l : Mp4.E Nat} {g : σ → Head → R σ} (h : ∀ s x, Calm c e F (g s x)) (s : σ) (q : Nat) :
    Calm c e F (loopR l g s q) := .bind .getFuel fun _ => .walk hs h _ _ _

theorem Calm.parseMvhd (hs : SaneC e F) (n : Size) : Calm c e F (parseMvhdR n) := by
  unfold parseMvhdR
  calm hs with [Calm.findBounds _, Calm.parseFullHead hs, Calm.readU32 hs, Calm.readU64 hs, Calm.seekToEnd hs _]
theorem Calm.descHeadLoop (hs : SaneC e F) (k : Nat) : ∀ a b, Calm c e F (descHeadLoopR k a b) := by
  induction k with
  | zero => intro a b; exact .pure _
  | succ k ih => intro a b; unfold descHeadLoopR; calm hs with [Calm.readU8 hs, ih _ _]
theorem Calm.parseDescHead (hs : SaneC e F) : Calm c e F parseDescHeadR := by
  unfold parseDescHeadR; calm hs with [Calm.readU8 hs, Calm.descHeadLoop hs _ _ _]
theorem Calm.parseDsDesc (hs : SaneC e F) (i : Mp4a) (n : Nat) : Calm c e F (parseDsDescR i n) := by
  unfold parseDsDescR; calm hs with [Calm.readU16 hs]
theorem Calm.descWalk (hs : SaneC e F) {w : UInt8} {g : Mp4a → Nat → R Mp4a} {l : Nat} (h : ∀ i n, Calm c e F (g i n)) (n : Nat) :
    ∀ i q, Calm c e F (descWalkR w g l n i q) := by
  induction n with
  | zero => intro s q; exact .outOfFuel
  | succ n ih =>
    intro s q; unfold descWalkR
    apply Calm.ite
    · refine Calm.bind (.parseDescHead hs) ?_
      rintro ⟨t, a, b⟩
      calm hs with [h _ _, ih _ _]
    · exact .pure _
theorem Calm.parseDcDesc (hs : SaneC e F) (i : Mp4a) (n : Nat) : Calm c e F (parseDcDescR i n) :=
  .bind (.seekCur hs _) fun _ => .bind (.readU32 hs) fun _ => .bind (.readU32 hs) fun _ => .bind .getFuel fun _ =>
    .descWalk hs (.parseDsDesc hs) _ _ _
theorem Calm.parseEsDesc (hs : SaneC e F) (i : Mp4a) (n : Nat) : Calm c e F (parseEsDescR i n) :=
  .bind (.seekCur hs _) fun _ => .bind .getFuel fun _ => .descWalk hs (.parseDcDesc hs) _ _ _
theorem Calm.parseEsds (hs : SaneC e F) (i : Mp4a) (n : Size) : Calm c e F (parseEsdsR i n) := by
  unfold parseEsdsR
  refine .bind (.parseFullHead hs) ?_
  rintro ⟨v, _⟩
  refine .ite (.fail _) (.bind (.parseDescHead hs) ?_)
  rintro ⟨t, a, b⟩
  exact .ite (.fail _) (.bind (.E _) fun _ => .bind (.E _) fun _ => .bind (.E _) fun _ => .parseEsDesc hs _ _)

theorem Calm.findLeaf (hs : SaneC e F) (n : Size) : Calm c e F (findLeafR n) := by
  unfold findLeafR; calm hs with [Calm.findBounds _, Calm.seekToEnd hs _]
theorem Calm.findStbl (hs : SaneC e F) (n : Size) : Calm c e F (findStblR n) := by
  unfold findStblR
  exact .bind (.findBounds _) fun _ => .loop hs (by calm hs with [Calm.findLeaf hs _, Calm.skipContent hs _]) _ _
theorem Calm.findMinf (hs : SaneC e F) (n : Size) : Calm c e F (findMinfR n) := by
  unfold findMinfR
  exact .bind (.findBounds _) fun _ => .loop hs (by calm hs with [Calm.findStbl hs _, Calm.skipContent hs _]) _ _
theorem Calm.findMdia (hs : SaneC e F) (n : Size) : Calm c e F (findMdiaR n) := by
  unfold findMdiaR
  exact .bind (.findBounds _) fun _ => .loop hs (by calm hs with [Calm.findMinf hs _, Calm.skipContent hs _]) _ _
theorem Calm.findTrak (hs : SaneC e F) (n : Size) : Calm c e F (findTrakR n) := by
  unfold findTrakR
  exact .bind (.findBounds _) fun _ => .loop hs (by calm hs with [Calm.findMdia hs _, Calm.skipContent hs _]) _ _
theorem Calm.findMeta (hs : SaneC e F) (n : Size) : Calm c e F (findMetaR n) := by
  unfold findMetaR
  exact .bind (.findBounds _) fun _ => .bind2 (.parseFullHead hs) fun _ _ => .ite (.fail _)
    (.loop hs (by calm hs with [Calm.findLeaf hs _, Calm.skipContent hs _]) _ _)
theorem Calm.findUdta (hs : SaneC e F) (n : Size) : Calm c e F (findUdtaR n) := by
  unfold findUdtaR
  exact .bind (.findBounds _) fun _ => .loop hs (by calm hs with [Calm.findMeta hs _, Calm.skipContent hs _]) _ _
theorem Calm.findMoov (hs : SaneC e F) (n : Size) : Calm c e F (findMoovR n) := by
  unfold findMoovR
  exact .bind (.findBounds _) fun _ => .loop hs (by calm hs with [Calm.findTrak hs _, Calm.findUdta hs _, Calm.skipContent hs _]) _ _

/-! ### Parts that request what they then read -/

/-- What was requested before is accounted for; the last request may not be, if it could not be read. -/
def LateMem {α} (F : Bytes) (t : RSt) (o : Out α) (t' : RSt) : Prop :=
  t'.mem.sum ≤ t.mem.sum + (F.length - t.pos) ∨
  ((o = .err .io ∨ o = .panic ∨ o = .fuel) ∧ ∃ n rest, t'.mem = n :: rest ∧ rest.sum ≤ t.mem.sum + (F.length - t.pos))

/-- What is requested is passed over. -/
structure Mem (c : Sched) (e : Env) (F : Bytes) (m : R α) (Q : α → Prop) : Prop where
  run : ∀ t, t.pos < 2^63 → match m c e F t with
    | (.ok a, t') => t'.pos < 2^63 ∧ t'.mem.sum + (F.length - t'.pos) ≤ t.mem.sum + (F.length - t.pos) ∧ Q a
    | (o, t') => LateMem F t o t'

namespace Mem

variable {Q : α → Prop}

theorem bind {m : R α} {f : α → R β} {S : β → Prop} (h : Mem c e F m Q) (hf : ∀ a, Q a → Mem c e F (f a) S) : Mem c e F (m >>= f) S := by
  refine ⟨fun t ht => ?_⟩
  have h := h.run t ht
  show match R.bind m f c e F t with
    | (.ok a, t') => _
    | (o, t') => _
  unfold R.bind
  rcases hx : m c e F t with ⟨a | k | _ | _, t1⟩ <;> rw [hx] at h
  · obtain ⟨h1, h2, h3⟩ := h
    have h' := (hf a h3).run t1 h1
    have late : ∀ o t', LateMem F t1 (α := β) o t' → LateMem F t o t' := by
      rintro o t' (h | ⟨ho, n, rest, hr, hl⟩)
      · exact .inl (by omega)
      · exact .inr ⟨ho, n, rest, hr, by omega⟩
    dsimp only
    rcases hy : f a c e F t1 with ⟨b | k | _ | _, t2⟩ <;> rw [hy] at h'
    · exact ⟨h'.1, by omega, h'.2.2⟩
    all_goals exact late _ _ h'
  all_goals
    rcases h with h | ⟨ho, h⟩
    · exact .inl h
    · exact .inr ⟨by simpa using ho, h⟩

theorem of_calm {m : R α} (h : Calm c e F m) (hp : ∀ t a t', t.pos < 2^63 → m c e F t = (.ok a, t') → t.pos ≤ t'.pos ∧ Q a) :
    Mem c e F m Q := by
  refine ⟨fun t ht => ?_⟩
  have h := h.run t
  rcases hx : m c e F t with ⟨a | k | _ | _, t1⟩ <;> rw [hx] at h
  · obtain ⟨h1, h2⟩ := hp t a t1 ht hx
    dsimp only at h ⊢
    rw [h.1]
    exact ⟨h.2 ht, by omega, h2⟩
  all_goals
    refine .inl ?_
    dsimp only at h
    rw [h.1]
    omega

theorem pure {a : α} (h : Q a) : Mem c e F (Pure.pure a) Q :=
  of_calm (.pure a) fun t b t' _ hx => by
    injection hx with h1 h2
    injection h1 with h1
    subst h1 h2
    exact ⟨Nat.le_refl _, h⟩
theorem fail {k : ErrKind} : Mem c e F (failR k) Q := of_calm (.fail k) fun t b t' _ hx => by injection hx with h1; cases h1
theorem outOfFuel : Mem c e F outOfFuelR Q := of_calm .outOfFuel fun t b t' _ hx => by injection hx with h1; cases h1
theorem getFuel : Mem c e F getFuelR fun _ => True :=
  of_calm .getFuel fun t b t' _ hx => by
    injection hx with h1 h2
    subst h2
    exact ⟨Nat.le_refl _, trivial⟩
theorem E (m : E α) (h : ∀ a, m e = .ok a → Q a) : Mem c e F m.r Q :=
  of_calm (.E m) fun t b t' _ hx => by
    injection hx with h1 h2
    subst h2
    exact ⟨Nat.le_refl _, h _ h1⟩
theorem ite {q : Prop} [Decidable q] {m m' : R α} (h : q → Mem c e F m Q) (h' : ¬ q → Mem c e F m' Q) :
    Mem c e F (if q then m else m') Q := by
  split
  · exact h ‹_›
  · exact h' ‹_›
theorem mono {m : R α} {S : α → Prop} (h : Mem c e F m Q) (hi : ∀ a, Q a → S a) : Mem c e F m S := by
  refine ⟨fun t ht => ?_⟩
  have h := h.run t ht
  rcases hx : m c e F t with ⟨a | k | _ | _, t1⟩ <;> rw [hx] at h
  · exact ⟨h.1, h.2.1, hi _ h.2.2⟩
  all_goals exact h

theorem readExact (hs : SaneC e F) (n : Nat) : Mem c e F (readExactR n) fun _ => True :=
  of_calm (.readExact hs n) fun t a t' _ hx => by
    have h := (readExactLoop_mem c e F e.fuel n [] t).2.1
    change readExactLoop e.fuel n [] c e F t = _ at hx
    rw [hx] at h
    exact ⟨h, trivial⟩

/-- A buffer that is filled. -/
theorem vec (hs : SaneC e F) (n : Nat) : Mem c e F (readU8VecR n) fun _ => True := by
  refine ⟨fun t ht => ?_⟩
  by_cases hn : 2^63 ≤ n
  · have : readU8VecR n c e F t = (.panic, { t with mem := n :: t.mem }) := by
      show R.bind (R.bind (askR n) fun _ => (allocU8 n).r) (fun _ => readExactR n) c e F t = _
      unfold R.bind askR E.r allocU8
      dsimp only
      rw [if_pos hn]
    rw [this]
    exact .inr ⟨.inr (.inl rfl), n, _, rfl, by omega⟩
  · have : readU8VecR n c e F t = readExactLoop e.fuel n [] c e F { t with mem := n :: t.mem } := by
      show R.bind (R.bind (askR n) fun _ => (allocU8 n).r) (fun _ => readExactR n) c e F t = _
      unfold R.bind askR E.r allocU8
      dsimp only
      rw [if_neg hn]
      rfl
    rw [this]
    obtain ⟨h1, h2, h3, h4⟩ := readExactLoop_mem c e F e.fuel n [] { t with mem := n :: t.mem }
    have hc := readExactLoop_cost c e F e.fuel n [] { t with mem := n :: t.mem }
    have hlen := hs.len
    rcases hx : readExactLoop e.fuel n [] c e F { t with mem := n :: t.mem } with ⟨a | k | _ | _, t1⟩ <;> rw [hx] at h1 h2 h3 h4 hc
    · obtain ⟨-, h5, h6, -⟩ := hc
      dsimp only at h1 h2 h3 h4 h5 h6 ⊢
      rw [h1, List.sum_cons]
      refine ⟨by omega, ?_, trivial⟩
      rcases Nat.eq_zero_or_pos n with h0 | h0
      · omega
      · have := h6 h0; omega
    all_goals
      dsimp only at h1 h4 ⊢
      refine .inr ⟨by simpa using h4, n, _, h1, by omega⟩

theorem allocRead (hs : SaneC e F) {n : Nat} {g : Bytes → R α} (hg : ∀ b, Mem c e F (g b) Q) :
    Mem c e F (do allocR n; let b ← readExactR n; g b) Q := by
  have := bind (vec (c := c) hs n) fun b _ => hg b
  refine ⟨fun t ht => ?_⟩
  have h := this.run t ht
  have heq : (readU8VecR n >>= fun b => g b) c e F t = (do allocR n; let b ← readExactR n; g b : R α) c e F t := by
    show R.bind (R.bind (allocR n) fun _ => readExactR n) g c e F t = R.bind (allocR n) (fun _ => R.bind (readExactR n) g) c e F t
    unfold R.bind
    rcases allocR n c e F t with ⟨a | k | _ | _, t1⟩ <;> rfl
  rw [heq] at h
  exact h

end Mem

theorem Mem.readUtf8 (hs : SaneC e F) (n : Nat) : Mem c e F (readUtf8R n) fun _ => True :=
  .bind (.vec hs n) fun b _ => by
    split
    · exact .pure trivial
    · exact .fail

theorem Mem.readUtf16 (hs : SaneC e F) (n : Nat) : Mem c e F (readUtf16R n) fun _ => True :=
  .allocRead hs fun b => by
    split
    · exact .pure trivial
    · exact .fail

theorem Mem.dataParse (hs : SaneC e F) (t n : Nat) : Mem c e F (Data.parseR t n) fun _ => True := by
  unfold Data.parseR
  split
  · exact .bind (.vec hs n) fun _ _ => .pure trivial
  · exact .bind (.readUtf8 hs n) fun _ _ => .pure trivial
  · exact .bind (.readUtf16 hs n) fun _ _ => .pure trivial
  · exact .bind (.vec hs n) fun _ _ => .pure trivial
  · exact .bind (.vec hs n) fun _ _ => .pure trivial
  · exact .bind (.vec hs n) fun _ _ => .pure trivial
  · exact .bind (.vec hs n) fun _ _ => .pure trivial
  · exact .fail

/-- Sizes that a head can have. -/
def SaneSize (n : Size) : Prop := n.headLen ≤ n.len ∧ n.len < 2^63

theorem Mem.parseHead (hs : SaneC e F) : Mem c e F parseHeadR fun h => SaneSize h.size :=
  of_calm (.parseHead hs) fun t a t' _ hx => by
    have h := Spend.parseHead (c := c) (e := e) (p := t.pos) (b := 1) (K := 0) (pot_rest F (0 + 1))
      (Q := fun hd q _ => HeadOf F t.pos hd ∧ q = t.pos + hd.size.headLen) (Nat.le_refl _) (fun hd b' h1 h2 => ⟨h1, rfl⟩) t rfl
    rw [hx] at h
    obtain ⟨_, _, h1, h2⟩ := h
    exact ⟨by omega, hs.size h1⟩

theorem Mem.fullHead (hs : SaneC e F) : Mem c e F parseFullHeadR fun _ => True :=
  .bind (Q := fun _ => True) (.bind (.readExact hs _) fun _ _ => .pure trivial) fun _ _ => .bind (.readExact hs _) fun _ _ => .pure trivial

theorem Mem.seekCur (hs : SaneC e F) {x : Int} (h0 : 0 ≤ x) : Mem c e F (seekCurR x) fun _ => True :=
  of_calm (.seekCur hs x) fun t a t' _ hx => by
    have h := Spend.seekCur (c := c) (e := e) (F := F) (φ := fun _ => 0) (p := t.pos) (b := 1) (x := x) (b' := 0)
      (Q := fun _ q _ => t.pos ≤ q) (by omega) (fun r hr _ => ⟨by omega, by omega⟩) t rfl
    rw [hx] at h
    obtain ⟨_, _, h1⟩ := h
    exact ⟨h1, trivial⟩

theorem asI64_nonneg {n : Nat} (h : n < 2^63) : 0 ≤ asI64 n := by rw [asI64_small h]; omega

theorem Mem.skipContent (hs : SaneC e F) {h : Head} (hh : SaneSize h.size) : Mem c e F (skipContentR h) fun _ => True := by
  refine .bind (.E (Q := fun n => n < 2^63) _ fun n hn => ?_) fun n hn => .seekCur hs (asI64_nonneg hn)
  rw [contentLen_sane hh.1] at hn
  injection hn with hn
  have := hh.2
  omega

theorem Mem.remaining (hs : SaneC e F) : Mem c e F remainingStreamLenR fun _ => True :=
  of_calm (.remainingStreamLen hs) fun t a t' _ hx => by
    obtain ⟨cur, t1, h1, hx⟩ := R.bind_ok_inv hx
    obtain ⟨len, t2, h2, hx⟩ := R.bind_ok_inv hx
    obtain ⟨n, t3, h3, hx⟩ := R.bind_ok_inv hx
    obtain ⟨u, t4, h4, hx⟩ := R.bind_ok_inv hx
    injection hx with _ hx
    subst hx
    have hc : cur = t.pos := by
      unfold tellR seekInR at h1
      split at h1 <;> injection h1 with h1 _ <;> cases h1
      rfl
    have := Spend.seekStart (c := c) (e := e) (F := F) (φ := fun _ => 0) (p := t3.pos) (b := 1) (x := cur) (b' := 0)
      (Q := fun _ q _ => q = cur) (by omega) (fun hr => ⟨by omega, rfl⟩) t3 rfl
    rw [h4] at this
    obtain ⟨_, _, h⟩ := this
    exact ⟨by omega, trivial⟩

/-! ### Atoms that are left at their end -/

theorem findBoundsR_ok {n : Size} {t t1 : RSt} {b : AtomBounds} (h : findBoundsR n c e F t = (.ok b, t1)) (hn : SaneSize n) (ht : t.pos < 2^63) :
    t1.pos = t.pos ∧ b.size = n ∧ (b.pos + n.headLen = t.pos ∨ b.pos + n.headLen = t.pos + 2^64) := by
  obtain ⟨cur, t2, h1, h⟩ := R.bind_ok_inv h
  obtain ⟨x, t3, h2, h⟩ := R.bind_ok_inv h
  injection h with h3 h4
  injection h3 with h3
  subst h3 h4
  injection h2 with h2 h5
  subst h5
  unfold tellR seekInR at h1
  split at h1 <;> injection h1 with h1 h6 <;> cases h1
  subst h6
  refine ⟨rfl, rfl, ?_⟩
  unfold subU at h2
  have := hn.1
  have := hn.2
  split at h2
  · injection h2 with h2
    show x + _ = _ ∨ _
    omega
  · split at h2
    · cases h2
    · injection h2 with h2
      show x + _ = _ ∨ x + _ = _
      omega

theorem seekToEndR_ok (hs : SaneC e F) {b : AtomBounds} {p : Nat} {t t1 : RSt} (h : seekToEndR b c e F t = (.ok (), t1))
    (hn : SaneSize b.size) (ht : t.pos < 2^63) (hp : p < 2^63) (hb : b.pos + b.size.headLen = p ∨ b.pos + b.size.headLen = p + 2^64) :
    t1.pos = p + (b.size.len - b.size.headLen) := by
  obtain ⟨cur, t2, h1, h⟩ := R.bind_ok_inv h
  obtain ⟨x, t3, h2, h⟩ := R.bind_ok_inv h
  obtain ⟨d, t4, h3, h⟩ := R.bind_ok_inv h
  unfold tellR seekInR at h1
  split at h1 <;> injection h1 with h1 h6 <;> cases h1
  subst h6
  injection h2 with h2 h5
  subst h5
  injection h3 with h3 h5
  subst h5
  have h4 := Spend.seekCur (c := c) (e := e) (F := F) (φ := fun _ => 0) (p := t.pos) (b := 1) (x := asI64 d) (b' := 0)
    (Q := fun _ q _ => (q : Int) = t.pos + asI64 d ∧ q ≤ e.maxPos) (by omega) (fun r hr hm => ⟨by omega, by omega, hm⟩)
    { pos := t.pos, tick := t.tick + 1, hit := t.hit, mem := t.mem } rfl
  rw [h] at h4
  obtain ⟨_, _, h4, h5⟩ := h4
  have hm := hs.max
  have hn1 := hn.1
  have hn2 := hn.2
  have hx : x = p + (b.size.len - b.size.headLen) := by
    change addU b.pos b.size.len e = .ok x at h2
    unfold addU at h2
    split at h2
    · injection h2 with h2
      omega
    · split at h2
      · cases h2
      · injection h2 with h2
        omega
  have hd : d = x - t.pos ∧ t.pos ≤ x ∨ d = 2^64 + x - t.pos ∧ x < t.pos := by
    unfold subU at h3
    split at h3
    · injection h3 with h3
      omega
    · split at h3
      · cases h3
      · injection h3 with h3
        omega
  unfold asI64 at h4
  split at h4 <;> omega

/-- `m` ends with a jump to the end of `b`. -/
def ToEnd (c : Sched) (e : Env) (F : Bytes) (b : AtomBounds) (m : R α) : Prop :=
  ∀ t a t', t.pos < 2^63 → m c e F t = (.ok a, t') → ∃ t1, t1.pos < 2^63 ∧ seekToEndR b c e F t1 = (.ok (), t')

theorem ToEnd.bind {b : AtomBounds} {m : R α} {f : α → R β} (h : Calm c e F m) (hf : ∀ a, ToEnd c e F b (f a)) :
    ToEnd c e F b (m >>= f) := by
  intro t a t' ht hx
  obtain ⟨a1, t1, h1, hx⟩ := R.bind_ok_inv hx
  have := (h.run t).2 ht
  rw [h1] at this
  exact hf a1 t1 a t' this hx
theorem ToEnd.fail {b : AtomBounds} {k : ErrKind} : ToEnd c e F b (failR k : R α) := by
  intro t a t' ht hx
  injection hx with hx
  cases hx
theorem ToEnd.ite {b : AtomBounds} {q : Prop} [Decidable q] {m m' : R α} (h : ToEnd c e F b m) (h' : ToEnd c e F b m') :
    ToEnd c e F b (if q then m else m') := by
  split
  · exact h
  · exact h'
theorem ToEnd.last {b : AtomBounds} {a : α} : ToEnd c e F b (do seekToEndR b; Pure.pure a) := by
  intro t a t' ht hx
  obtain ⟨u, t1, h1, hx⟩ := R.bind_ok_inv hx
  injection hx with _ hx
  subst hx
  exact ⟨t, ht, h1⟩

theorem Mem.toEnd (hs : SaneC e F) {n : Size} (hn : SaneSize n) {k : AtomBounds → R α} (hc : ∀ b, Calm c e F (k b))
    (hk : ∀ b, ToEnd c e F b (k b)) : Mem c e F (findBoundsR n >>= k) fun _ => True :=
  of_calm (.bind (.findBounds n) hc) fun t a t' ht hx => by
    obtain ⟨b, t1, h1, hy⟩ := R.bind_ok_inv hx
    obtain ⟨h2, h6, h3⟩ := findBoundsR_ok h1 hn ht
    obtain ⟨t2, h4, h5⟩ := hk b t1 a t' (by omega) hy
    subst h6
    have := seekToEndR_ok hs h5 hn h4 ht h3
    exact ⟨by omega, trivial⟩

theorem Mem.parseMvhd (hs : SaneC e F) {n : Size} (hn : SaneSize n) : Mem c e F (parseMvhdR n) fun _ => True := by
  refine .toEnd hs hn (fun b => ?_) fun b => ?_
  · calm hs with [Calm.parseFullHead hs, Calm.readU32 hs, Calm.readU64 hs, Calm.seekToEnd hs _]
  · refine .bind (.parseFullHead hs) ?_
    rintro ⟨v, _⟩
    exact .ite (.bind (.seekCur hs _) fun _ => .bind (.readU32 hs) fun _ => .bind (.readU32 hs) fun _ => .bind (.E _) fun _ =>
        .bind (.E _) fun _ => .last)
      (.ite (.bind (.seekCur hs _) fun _ => .bind (.readU32 hs) fun _ => .bind (.readU64 hs) fun _ => .bind (.E _) fun _ =>
        .bind (.E _) fun _ => .last) .fail)

theorem Mem.parseMp4a (hs : SaneC e F) {n : Size} (hn : SaneSize n) : Mem c e F (parseMp4aR n) fun _ => True := by
  refine .toEnd hs hn (fun b => ?_) fun b => ?_
  · calm hs with [Calm.parseHead hs, Calm.parseEsds hs _ _, Calm.seekToEnd hs _]
  · exact .bind (.seekCur hs _) fun _ => .bind (.parseHead hs) fun _ => .ite .fail (.bind (.parseEsds hs _ _) fun _ => .last)

/-! ### Loops and items -/

theorem Mem.walk (hs : SaneC e F) {σ : Type} {l : Mp4.E Nat} {g : σ → Head → R σ}
    (h : ∀ s x, SaneSize x.size → Mem c e F (g s x) fun _ => True) (n : Nat) : ∀ s q, Mem c e F (walkR l g n s q) fun _ => True := by
  induction n with
  | zero => intro s q; exact .outOfFuel
  | succ n ih =>
    intro s q
    unfold walkR
    refine .bind (.E (Q := fun _ => True) _ fun _ _ => trivial) fun lim _ => .ite (fun _ => ?_) fun _ => .pure trivial
    exact .bind (.parseHead hs) fun hd hh => .bind (h s hd hh) fun s' _ => .bind (.E (Q := fun _ => True) _ fun _ _ => trivial)
      fun q' _ => ih _ _

theorem Mem.loop (hs : SaneC e F) {σ : Type} {l : Mp4.E Nat} {g : σ → Head → R σ}
    (h : ∀ s x, SaneSize x.size → Mem c e F (g s x) fun _ => True) (s : σ) (q : Nat) : Mem c e F (loopR l g s q) fun _ => True :=
  .bind .getFuel fun _ _ => .walk hs h _ _ _

theorem Mem.skip (hs : SaneC e F) {σ} {s : σ} {h : Head} (hh : SaneSize h.size) :
    Mem c e F (do skipContentR h; Pure.pure s) fun _ => True := .bind (.skipContent hs hh) fun _ _ => .pure trivial

theorem Mem.kid (hs : SaneC e F) {σ τ : Type} {parse : Size → R τ} (hp : ∀ n, SaneSize n → Mem c e F (parse n) fun _ => True)
    {fc : Fourcc} (g : σ → τ → σ) (s : σ) (h : Head) (hh : SaneSize h.size) :
    Mem c e F (if h.fourcc = fc then do let a ← parse h.size; Pure.pure (g s a) else (do skipContentR h; Pure.pure s)) fun _ => True :=
  .ite (fun _ => .bind (hp _ hh) fun _ _ => .pure trivial) fun _ => .skip hs hh

theorem Mem.any {m : Mp4.E α} : Mem c e F m.r fun _ => True := .E _ fun _ _ => trivial

theorem Mem.parseStsd (hs : SaneC e F) (n : Size) : Mem c e F (parseStsdR n) fun _ => True := by
  unfold parseStsdR
  refine .bind (.fullHead hs) ?_
  rintro ⟨v, _⟩ _
  exact .ite (fun _ => .fail) fun _ => .bind (.seekCur hs (by omega)) fun _ _ =>
    .loop hs (.kid hs (fun _ => .parseMp4a hs) fun _ a => some a) _ _
theorem Mem.parseStbl (hs : SaneC e F) (n : Size) : Mem c e F (parseStblR n) fun _ => True :=
  .loop hs (.kid hs (fun n _ => .parseStsd hs n) fun _ a => some a) _ _
theorem Mem.parseMinf (hs : SaneC e F) (n : Size) : Mem c e F (parseMinfR n) fun _ => True :=
  .loop hs (.kid hs (fun n _ => .parseStbl hs n) fun _ a => some a) _ _
theorem Mem.parseMdia (hs : SaneC e F) (n : Size) : Mem c e F (parseMdiaR n) fun _ => True :=
  .loop hs (.kid hs (fun n _ => .parseMinf hs n) fun _ a => some a) _ _
theorem Mem.parseTrak (hs : SaneC e F) (n : Size) : Mem c e F (parseTrakR n) fun _ => True :=
  .loop hs (.kid hs (fun n _ => .parseMdia hs n) fun _ a => some a) _ _

theorem Mem.itemHandle (hs : SaneC e F) (s : ItemSt) (h : Head) (hh : SaneSize h.size) :
    Mem c e F (itemHandleR s h) fun _ => True := by
  unfold itemHandleR
  refine .ite (fun _ => ?_) fun _ => .ite (fun _ => ?_) fun _ => .ite (fun _ => ?_) fun _ => .skip hs hh
  · refine .bind (.fullHead hs) ?_
    rintro ⟨v, fl⟩ _
    exact .ite (fun _ => .fail) fun _ => .bind (.seekCur hs (by omega)) fun _ _ => .bind .any fun _ _ => .bind .any fun _ _ =>
      .bind (.dataParse hs _ _) fun _ _ => .pure trivial
  all_goals
    refine .bind (.fullHead hs) ?_
    rintro ⟨v, fl⟩ _
    exact .ite (fun _ => .fail) fun _ => .bind .any fun _ _ => .bind .any fun _ _ => .bind (.readUtf8 hs _) fun _ _ => .pure trivial

theorem Mem.parseItem (hs : SaneC e F) (fc : Fourcc) (n : Nat) : Mem c e F (parseItemR fc n) fun _ => True :=
  .bind (.loop hs (.itemHandle hs) _ _) fun _ _ => .ite (fun _ => .fail) fun _ => .pure trivial
theorem Mem.parseIlst (hs : SaneC e F) (n : Size) : Mem c e F (parseIlstR n) fun _ => True :=
  .loop hs (fun s h hh => .ite (fun _ => .skip hs hh) fun _ => .bind .any fun _ _ => .bind (.parseItem hs _ _) fun _ _ => .pure trivial) _ _
theorem Mem.parseMeta (hs : SaneC e F) (n : Size) : Mem c e F (parseMetaR n) fun _ => True := by
  unfold parseMetaR
  refine .bind (.fullHead hs) ?_
  rintro ⟨v, _⟩ _
  exact .ite (fun _ => .fail) fun _ => .loop hs (.kid hs (fun n _ => .parseIlst hs n) fun _ a => some a) _ _
theorem Mem.parseUdta (hs : SaneC e F) (n : Size) : Mem c e F (parseUdtaR n) fun _ => True :=
  .loop hs (.kid hs (fun n _ => .parseMeta hs n) fun _ a => some a) _ _
theorem Mem.parseMoov (hs : SaneC e F) (n : Size) : Mem c e F (parseMoovR n) fun _ => True :=
  .loop hs (fun s h hh => .ite (fun _ => .bind (.parseMvhd hs hh) fun _ _ => .pure trivial) fun _ =>
    .ite (fun _ => .bind (.parseTrak hs _) fun _ _ => .pure trivial) fun _ =>
    .ite (fun _ => .bind (.parseUdta hs _) fun _ _ => .pure trivial) fun _ => .skip hs hh) _ _
theorem Mem.topWalk (hs : SaneC e F) (len n : Nat) : ∀ q, Mem c e F (topWalkR len n q) fun _ => True := by
  induction n with
  | zero => intro q; exact .outOfFuel
  | succ n ih =>
    intro q
    unfold topWalkR
    exact .ite (fun _ => .fail) fun _ => .bind (.parseHead hs) fun hd hh => .ite (fun _ => .parseMoov hs _) fun _ =>
      .bind (.skipContent hs hh) fun _ _ => .bind .any fun _ _ => ih _
theorem Mem.parseFtyp (hs : SaneC e F) : Mem c e F parseFtypR fun _ => True :=
  .bind (.parseHead hs) fun _ _ => .ite (fun _ => .fail) fun _ => .bind .any fun _ _ => .readUtf8 hs _
theorem Mem.readTag (hs : SaneC e F) : Mem c e F readTagR fun _ => True :=
  .bind (.parseFtyp hs) fun _ _ => .bind (.remaining hs) fun _ _ => .bind .getFuel fun _ _ => .bind (.topWalk hs _ _ _) fun _ _ =>
    .pure trivial

/-! ### The part of writing that only reads -/

theorem Calm.findRest (hs : SaneC e F) : Calm c e F (do
    let len ← remainingStreamLenR
    let s ← loopR (Pure.pure len) (fun (s : TopBounds) h =>
      if h.fourcc = MOVIE then do let a ← findMoovR h.size; Pure.pure { s with moov := some a }
      else if h.fourcc = MEDIA_DATA then do let a ← findLeafR h.size; Pure.pure { s with mdat := some a }
      else do skipContentR h; Pure.pure s) {} 0
    let mdatPos := match s.mdat with
      | some b => b.pos
      | none => 0
    match s.moov with
    | some m => Pure.pure (mdatPos, m)
    | none => failR (.atomNotFound MOVIE)) := by
  refine .bind (.remainingStreamLen hs) fun _ => .bind (.loop hs (by
    calm hs with [Calm.findMoov hs _, Calm.findLeaf hs _, Calm.skipContent hs _]) _ _) fun s => ?_
  rcases s with ⟨_ | m, _ | b⟩
  · exact .fail _
  · exact .fail _
  · exact .pure _
  · exact .pure _

/-- At most `K` bytes are requested in addition, and maybe a last buffer that could not be filled. -/
structure Adds (c : Sched) (e : Env) (F : Bytes) (K : Nat) (m : R α) : Prop where
  run : ∀ t, t.pos < 2^63 → ((m c e F t).2.mem.sum ≤ t.mem.sum + K ∧ (∀ a, (m c e F t).1 = .ok a → (m c e F t).2.pos < 2^63)) ∨
    (((m c e F t).1 = .err .io ∨ (m c e F t).1 = .panic ∨ (m c e F t).1 = .fuel) ∧
      ∃ n rest, (m c e F t).2.mem = n :: rest ∧ rest.sum ≤ t.mem.sum + K)

theorem Adds.of_calm {m : R α} (h : Calm c e F m) : Adds c e F 0 m := by
  refine ⟨fun t ht => .inl ⟨?_, fun _ _ => (h.run t).2 ht⟩⟩
  rw [(h.run t).1]
  exact Nat.le_refl _

theorem Adds.of_mem {m : R α} {Q : α → Prop} (h : Mem c e F m Q) : Adds c e F F.length m := by
  refine ⟨fun t ht => ?_⟩
  have h := h.run t ht
  rcases hx : m c e F t with ⟨a | k | _ | _, t1⟩ <;> rw [hx] at h
  · exact .inl ⟨by dsimp only; omega, fun _ _ => h.1⟩
  all_goals
    rcases h with h | ⟨ho, n, rest, h1, h2⟩
    · exact .inl ⟨by dsimp only; omega, fun a ha => by cases ha⟩
    · exact .inr ⟨ho, n, rest, h1, by omega⟩

theorem Adds.bind {K K' : Nat} {m : R α} {f : α → R β} (h : Adds c e F K m) (hf : ∀ a, Adds c e F K' (f a)) :
    Adds c e F (K + K') (m >>= f) := by
  refine ⟨fun t ht => ?_⟩
  have h := h.run t ht
  have hb : (m >>= f) c e F t = R.bind m f c e F t := rfl
  rw [hb]
  unfold R.bind
  rcases hx : m c e F t with ⟨a | k | _ | _, t1⟩ <;> rw [hx] at h
  · dsimp only at h ⊢
    rcases h with ⟨h1, h2⟩ | ⟨h1, _⟩
    · rcases (hf a).run t1 (h2 a rfl) with ⟨h3, h4⟩ | ⟨h3, n, rest, h4, h5⟩
      · exact .inl ⟨by omega, h4⟩
      · exact .inr ⟨h3, n, rest, h4, by omega⟩
    · simp at h1
  all_goals
    rcases h with ⟨h1, h2⟩ | ⟨h1, n, rest, h4, h5⟩
    · exact .inl ⟨by dsimp only at h1 ⊢; omega, fun a ha => by cases ha⟩
    · exact .inr ⟨by simpa using h1, n, rest, h4, by omega⟩

/-- A buffer that is no larger than the input, unless it is too large for a `Vec` or nothing can be read into it. -/
theorem Adds.alloc {n x : Nat} {m : R α} (h : n ≤ F.length ∨ 2^63 ≤ n ∨ e.maxPos < x) (hs : SaneC e F) (hm : Calm c e F m) :
    Adds c e F F.length (do allocR n; seekStartR x; m) := by
  have hc : Calm c e F (do seekStartR x; m : R α) := .bind (.seekStart hs x) fun _ => hm
  refine ⟨fun t ht => ?_⟩
  by_cases hn : 2^63 ≤ n
  · have heq : (do allocR n; seekStartR x; m : R α) c e F t = (.panic, { t with mem := n :: t.mem }) := by
      show R.bind (R.bind (askR n) fun _ => (allocU8 n).r) (fun _ => (do seekStartR x; m : R α)) c e F t = _
      unfold R.bind askR E.r allocU8
      dsimp only
      rw [if_pos hn]
    rw [heq]
    exact .inr ⟨.inr (.inl rfl), n, _, rfl, by omega⟩
  · have heq : (do allocR n; seekStartR x; m : R α) c e F t = (do seekStartR x; m : R α) c e F { t with mem := n :: t.mem } := by
      show R.bind (R.bind (askR n) fun _ => (allocU8 n).r) (fun _ => (do seekStartR x; m : R α)) c e F t = _
      unfold R.bind askR E.r allocU8
      dsimp only
      rw [if_neg hn]
    rw [heq]
    obtain ⟨h1, h2⟩ := hc.run { t with mem := n :: t.mem }
    rw [h1]
    dsimp only at h2
    by_cases hl : n ≤ F.length
    · exact .inl ⟨by rw [List.sum_cons]; omega, fun _ _ => h2 ht⟩
    · refine .inr ⟨.inl ?_, n, _, rfl, by omega⟩
      have hx : ¬ (0 ≤ (x : Int) ∧ (x : Int) ≤ e.maxPos) := by omega
      show (R.bind (R.bind (seekR x) fun _ => Pure.pure ()) (fun _ => m) c e F _).1 = _
      unfold R.bind seekR
      rcases hc : c t.tick with k | _ | _ <;> dsimp only
      · rw [if_neg hx]

theorem E_val {m : Mp4.E α} {f : α → R β} {K : Nat} (h : ∀ a, m e = .ok a → Adds c e F K (f a)) : Adds c e F K (m.r >>= f) := by
  refine ⟨fun t ht => ?_⟩
  have hb : (m.r >>= f) c e F t = R.bind m.r f c e F t := rfl
  rw [hb]
  unfold R.bind
  have h2 : m.r c e F t = (m e, t) := rfl
  rw [h2]
  rcases hx : m e with a | k | _ | _
  · exact (h a hx).run t ht
  all_goals exact .inl ⟨Nat.le_add_right _ _, fun a ha => by cases ha⟩

theorem Adds.findTop (hs : SaneC e F) : Adds c e F F.length findTopR := .bind (.of_mem (.parseFtyp hs)) fun _ => .of_calm (.findRest hs)

theorem Adds.seekEnd {f : Nat → R β} {K : Nat} (hs : SaneC e F) (h : Adds c e F K (f F.length)) : Adds c e F K (seekEndR >>= f) := by
  refine ⟨fun t ht => ?_⟩
  have hb : (seekEndR >>= f) c e F t = R.bind seekEndR f c e F t := rfl
  rw [hb]
  unfold R.bind seekEndR seekInR
  have hlen := hs.len
  rcases hc : c t.tick with n | _ | _ <;> dsimp only
  · exact h.run { t with pos := F.length, tick := t.tick + 1 } hlen
  all_goals exact .inl ⟨Nat.le_add_right _ _, fun a ha => by cases ha⟩

theorem Adds.preparePhase (hs : SaneC e F) (atoms : List AtomData) : Adds c e F (F.length + F.length) (preparePhaseR atoms) := by
  refine .bind (.findTop hs) ?_
  rintro ⟨mdatPos, moov⟩
  refine E_val fun pl _ => .seekEnd hs (E_val fun n hn => ?_)
  refine .alloc ?_ hs (.bind (.readToEnd hs) fun _ => .pure _)
  have hlen := hs.len
  unfold Mp4.subU at hn
  split at hn
  · injection hn with hn; omega
  · split at hn
    · cases hn
    · injection hn with hn
      have := hs.max
      omega

/-! ### Tables -/

theorem readTable_mem (hs : SaneC e F) (w : Nat) : ∀ (k : Nat) (t : RSt), t.pos < 2^63 →
    (readTableR w k c e F t).2.mem = t.mem ∧
    ((∃ l, (readTableR w k c e F t).1 = .ok l ∧ (readTableR w k c e F t).2.pos = t.pos + w * k ∧ (readTableR w k c e F t).2.pos < 2^63 ∧
        (0 < w * k → t.pos + w * k ≤ F.length)) ∨
      (readTableR w k c e F t).1 = .err .io ∨ (readTableR w k c e F t).1 = .fuel)
  | 0, t, ht => ⟨rfl, .inl ⟨[], rfl, rfl, ht, fun h => absurd h (by omega)⟩⟩
  | k+1, t, ht => by
    have heq : readTableR w (k + 1) c e F t = R.bind (readExactR w) (fun b => R.bind (readTableR w k) fun rest => Pure.pure (beNat b :: rest)) c e F t := rfl
    rw [heq]
    unfold R.bind
    obtain ⟨h1, h2, h3, h4⟩ := readExactLoop_mem c e F e.fuel w [] t
    have hc := readExactLoop_cost c e F e.fuel w [] t
    have hr : readExactR w c e F t = readExactLoop e.fuel w [] c e F t := rfl
    rw [hr]
    have hlen := hs.len
    rcases hx : readExactLoop e.fuel w [] c e F t with ⟨a | x | _ | _, t1⟩ <;> rw [hx] at h1 h2 h3 h4 hc <;> dsimp only at h1 h2 h3 h4 hc ⊢
    · obtain ⟨-, h5, h6, -⟩ := hc
      have ht1 : t1.pos < 2^63 := by omega
      obtain ⟨i1, i2⟩ := readTable_mem hs w k t1 ht1
      rcases hy : readTableR w k c e F t1 with ⟨l | x | _ | _, t2⟩ <;> rw [hy] at i1 i2 <;> dsimp only at i1 i2 ⊢
      · refine ⟨i1.trans h1, .inl ⟨_, rfl, ?_⟩⟩
        rcases i2 with ⟨_, -, i3, i4, i5⟩ | i2 | i2
        · have hm : w * (k + 1) = w * k + w := Nat.mul_succ _ _
          refine ⟨by show t2.pos = _; omega, i4, fun h0 => ?_⟩
          rcases Nat.eq_zero_or_pos (w * k) with hz | hz
          · rcases Nat.eq_zero_or_pos w with hw | hw
            · omega
            · have := h6 hw; omega
          · have := i5 hz; omega
        · cases i2
        · cases i2
      all_goals
        refine ⟨i1.trans h1, .inr ?_⟩
        simpa using i2
    all_goals
      refine ⟨h1, .inr ?_⟩
      simpa using h4

/-- Reading a table requests what its entries take. -/
theorem Mem.parseTable (hs : SaneC e F) (w : Nat) (n : Size) : Mem c e F (parseTableR w n) fun _ => True := by
  unfold parseTableR
  refine .bind (.fullHead hs) ?_
  rintro ⟨v, _⟩ _
  refine .ite (fun _ => ?_) fun _ => .fail
  refine .bind (Q := fun _ => True) (.bind (.readExact hs _) fun _ _ => .pure trivial) fun k _ => .bind .any fun l _ => .ite (fun _ => .fail) fun _ => ?_
  refine .bind (Q := fun _ => True) (of_calm .tell fun t a t' _ hx => ?_) fun q _ => ?_
  · unfold tellR seekInR at hx
    split at hx
    · injection hx with _ hx
      subst hx
      exact ⟨Nat.le_refl _, trivial⟩
    · injection hx with hx; cases hx
  refine ⟨fun t ht => ?_⟩
  have heq : (do askR (w * k); let offsets ← readTableR w k; Pure.pure (q, offsets) : R (Nat × List Nat)) c e F t =
    R.bind (readTableR w k) (fun offsets => Pure.pure (q, offsets)) c e F { t with mem := w * k :: t.mem } := rfl
  rw [heq]
  unfold R.bind
  obtain ⟨h1, h2⟩ := readTable_mem (c := c) hs w k { t with mem := w * k :: t.mem } ht
  rcases hy : readTableR w k c e F { t with mem := w * k :: t.mem } with ⟨l | x | _ | _, t2⟩ <;> rw [hy] at h1 h2 <;> dsimp only at h1 h2 ⊢
  · rcases h2 with ⟨_, -, i3, i4, i5⟩ | h2 | h2
    · refine ⟨i4, ?_, trivial⟩
      have hsum : t2.mem.sum = w * k + t.mem.sum := by rw [h1, List.sum_cons]
      show t2.mem.sum + (F.length - t2.pos) ≤ _
      rcases Nat.eq_zero_or_pos (w * k) with hz | hz
      · omega
      · have := i5 hz; omega
    · cases h2
    · cases h2
  all_goals
    refine .inr ⟨?_, w * k, _, h1, by omega⟩
    simpa using h2

end

end Mp4
