import Verif.Model.Buffered
import Verif.Proof.Reader
import Verif.Spec.Calls
/-
A `BufReader` is one of the readers of Model/Reader.lean: whatever the reader inside does, there are calls of an unbuffered
reader that give the same.
-/
namespace Mp4

/-- From the `t`-th call on, the reader behaves as in `cs`. -/
def Plays (c : Sched) (t : Nat) (cs : List Call) : Prop := ∀ i (h : i < cs.length), c (t + i) = cs[i]

theorem Plays.nil {c : Sched} {t : Nat} : Plays c t [] := fun i h => absurd h (Nat.not_lt_zero i)

theorem Plays.one {c : Sched} {t : Nat} : Plays c t [c t] := by
  intro i h
  obtain rfl : i = 0 := by simp at h; omega
  rfl

theorem Plays.append {c : Sched} {t : Nat} {a b : List Call} (h1 : Plays c t a) (h2 : Plays c (t + a.length) b) : Plays c t (a ++ b) := by
  intro i h
  rcases Nat.lt_or_ge i a.length with hi | hi
  · rw [List.getElem_append_left hi]; exact h1 i hi
  · rw [List.getElem_append_right hi, ← h2 (i - a.length) (by rw [List.length_append] at h; omega), Nat.add_assoc, Nat.add_sub_cancel' hi]

theorem Plays.left {c : Sched} {t : Nat} {a b : List Call} (h : Plays c t (a ++ b)) : Plays c t a := by
  intro i hi
  have := h i (by rw [List.length_append]; omega)
  rwa [List.getElem_append_left hi] at this

theorem Plays.right {c : Sched} {t : Nat} {a b : List Call} (h : Plays c t (a ++ b)) : Plays c (t + a.length) b := by
  intro i hi
  have := h (a.length + i) (by rw [List.length_append]; omega)
  rw [List.getElem_append_right (by omega), ← Nat.add_assoc] at this
  rw [this]
  congr 1
  omega

theorem Plays.head {c : Sched} {t : Nat} {q : Call} {cs : List Call} (h : Plays c t (q :: cs)) : c t = q := h 0 (Nat.zero_lt_succ _)
theorem Plays.tail {c : Sched} {t : Nat} {q : Call} {cs : List Call} (h : Plays c t (q :: cs)) : Plays c (t + 1) cs :=
  Plays.right (a := [q]) h

/-- A call that does not succeed. -/
def Call.bad : Call → Bool
  | .give _ => false
  | _ => true

/-- The calls that do not succeed. -/
def bads (cs : List Call) : List Call := cs.filter Call.bad

/-- The calls `cs` of an unbuffered reader in place of the calls `ds`: the same ones fail, and there are as many at least (apart from one that
is made twice, if there is an error). -/
structure Akin {α} (o : Out α) (cs ds : List Call) : Prop where
  bad : bads cs = bads ds
  len : ds.length ≤ cs.length + (match o with | .ok _ => 0 | _ => 1)

theorem Akin.of {α} {o : Out α} {cs ds : List Call} (h : bads cs = bads ds) (hl : ds.length ≤ cs.length) : Akin o cs ds :=
  ⟨h, by omega⟩

theorem bads_append (a b : List Call) : bads (a ++ b) = bads a ++ bads b := List.filter_append ..

theorem Akin.append {α β} {a : α} {o : Out β} {cs ds cs' ds' : List Call} (h : Akin (Out.ok a) cs ds) (h' : Akin o cs' ds') :
    Akin o (cs ++ cs') (ds ++ ds') := by
  refine ⟨by rw [bads_append, bads_append, h.bad, h'.bad], ?_⟩
  have h1 : ds.length ≤ cs.length + 0 := h.len
  have h2 := h'.len
  rw [List.length_append, List.length_append]
  omega

theorem Akin.fails {α β} {o : Out α} {o' : Out β} {cs ds : List Call} (h : Akin o cs ds) (ho : ∀ a, o' ≠ .ok a) : Akin o' cs ds := by
  refine ⟨h.bad, ?_⟩
  have := h.len
  rcases o' with a | _ | _ | _
  · exact absurd rfl (ho a)
  all_goals
    dsimp only
    split at this <;> omega

/-- The buffer holds what is in front of the cursor of the reader inside. -/
structure BSt.Ok (F : Bytes) (s : BSt) : Prop where
  le : s.buf.length ≤ s.cur
  eq : s.buf = (F.drop s.pos).take s.buf.length
  lt : s.cur < 2^63

/-- The state of an unbuffered reader, after `t` calls. -/
def BSt.plain (s : BSt) (t : Nat) : RSt := ⟨s.pos, t, s.hit, s.mem⟩

/-- From a good state on, `b` is what `r` is for some calls; as many of them fail as of those of the reader inside. -/
structure BStep (c : Sched) (cap : Nat) (e : Env) (F : Bytes) {α} (b : B α) (r : R α) : Prop where
  run : ∀ s, s.Ok F → (b c cap e F s).2.Ok F ∧ ∃ cs ds, Plays c s.tick ds ∧ (b c cap e F s).2.tick = s.tick + ds.length ∧ Akin (b c cap e F s).1 cs ds ∧
    ∀ c' t, Plays c' t cs → r c' e F (s.plain t) = ((b c cap e F s).1, (b c cap e F s).2.plain (t + cs.length))

namespace BStep

variable {c : Sched} {cap : Nat} {e : Env} {F : Bytes}

theorem pure {α} (a : α) : BStep c cap e F (Pure.pure a : B α) (Pure.pure a) :=
  ⟨fun _ hs => ⟨hs, [], [], .nil, rfl, .of rfl (Nat.le_refl _), fun _ _ _ => rfl⟩⟩

theorem bind {α β} {b : B α} {r : R α} {g : α → B β} {f : α → R β} (h : BStep c cap e F b r) (hf : ∀ a, BStep c cap e F (g a) (f a)) :
    BStep c cap e F (b >>= g) (r >>= f) := by
  refine ⟨fun s hs => ?_⟩
  obtain ⟨hk, cs, ds, h1, h2, h3, h4⟩ := h.run s hs
  show (B.bind b g c cap e F s).2.Ok F ∧ ∃ cs ds, Plays c s.tick ds ∧ (B.bind b g c cap e F s).2.tick = s.tick + ds.length ∧
    Akin (B.bind b g c cap e F s).1 cs ds ∧
    ∀ c' t, Plays c' t cs → R.bind r f c' e F (s.plain t) = ((B.bind b g c cap e F s).1, (B.bind b g c cap e F s).2.plain (t + cs.length))
  unfold B.bind R.bind
  rcases hx : b c cap e F s with ⟨o, s'⟩
  rw [hx] at hk h2 h3 h4
  dsimp only at hk h2 h3 h4
  rcases o with a | k | _ | _
  · obtain ⟨hk', cs', ds', h1', h2', h3', h4'⟩ := (hf a).run s' hk
    refine ⟨hk', cs ++ cs', ds ++ ds', h1.append (by rw [← h2]; exact h1'), ?_, h3.append h3', fun c' t hc => ?_⟩
    · dsimp only
      rw [h2', h2, List.length_append, Nat.add_assoc]
    · rw [h4 c' t hc.left]
      dsimp only
      rw [h4' c' _ hc.right, List.length_append, Nat.add_assoc]
  all_goals
    refine ⟨hk, cs, ds, h1, h2, h3.fails (fun _ h => by cases h), fun c' t hc => ?_⟩
    rw [h4 c' t hc]

theorem E {α} (m : E α) : BStep c cap e F m.b m.r := ⟨fun _ hs => ⟨hs, [], [], .nil, rfl, .of rfl (Nat.le_refl _), fun _ _ _ => rfl⟩⟩
theorem fail {α} (k : ErrKind) : BStep c cap e F (failBuf k : B α) (failR k) := ⟨fun _ hs => ⟨hs, [], [], .nil, rfl, .of rfl (Nat.le_refl _), fun _ _ _ => rfl⟩⟩
theorem outOfFuel {α} : BStep c cap e F (outOfFuelBuf : B α) outOfFuelR := ⟨fun _ hs => ⟨hs, [], [], .nil, rfl, .of rfl (Nat.le_refl _), fun _ _ _ => rfl⟩⟩
theorem getFuel : BStep c cap e F getFuelBuf getFuelR := ⟨fun _ hs => ⟨hs, [], [], .nil, rfl, .of rfl (Nat.le_refl _), fun _ _ _ => rfl⟩⟩
theorem ask (n : Nat) : BStep c cap e F (askBuf n) (askR n) :=
  ⟨fun _ hs => ⟨⟨hs.le, hs.eq, hs.lt⟩, [], [], .nil, rfl, .of rfl (Nat.le_refl _), fun _ _ _ => rfl⟩⟩
theorem alloc (n : Nat) : BStep c cap e F (allocBuf n) (allocR n) := bind (ask n) fun _ => E _

theorem ite {α} {q : Prop} [Decidable q] {b b' : B α} {r r' : R α} (h : BStep c cap e F b r) (h' : BStep c cap e F b' r') :
    BStep c cap e F (if q then b else b') (if q then r else r') := by
  split
  · exact h
  · exact h'

/-- A state without buffered bytes. -/
theorem ok_nil {s : BSt} (hb : s.buf = []) (h : s.cur < 2^63) : s.Ok F :=
  ⟨by rw [hb]; exact Nat.zero_le _, by rw [hb]; rfl, h⟩

theorem seekIn (f : BSt → Nat) (g : RSt → Nat) (hfg : ∀ s t, f s = g (s.plain t)) (hl : ∀ s, s.Ok F → f s < 2^63) :
    BStep c cap e F (fun c cap e F s => innerSeekIn (f s) c cap e F s) (fun c e F s => seekInR (g s) c e F s) := by
  refine ⟨fun s hs => ?_⟩
  show (innerSeekIn (f s) c cap e F s).2.Ok F ∧ ∃ cs ds, Plays c s.tick ds ∧ (innerSeekIn (f s) c cap e F s).2.tick = s.tick + ds.length ∧
    Akin (innerSeekIn (f s) c cap e F s).1 cs ds ∧ ∀ c' t, Plays c' t cs → seekInR (g (s.plain t)) c' e F (s.plain t) =
      ((innerSeekIn (f s) c cap e F s).1, (innerSeekIn (f s) c cap e F s).2.plain (t + cs.length))
  unfold innerSeekIn
  rcases hc : c s.tick with k | _ | _ <;> dsimp only
  · refine ⟨ok_nil rfl (hl s hs), [.give k], [.give k], hc ▸ .one, rfl, .of rfl (Nat.le_refl _), fun c' t h => ?_⟩
    unfold seekInR
    rw [show (s.plain t).tick = t from rfl, h.head, ← hfg]
    rfl
  all_goals
    refine ⟨⟨hs.le, hs.eq, hs.lt⟩, [c s.tick], [c s.tick], .one, rfl, .of rfl (Nat.le_refl _), fun c' t h => ?_⟩
    unfold seekInR
    rw [show (s.plain t).tick = t from rfl, h.head, hc]
    rfl

theorem tell : BStep c cap e F tellBuf tellR :=
  seekIn (fun s => s.cur - s.buf.length) (fun s => s.pos) (fun _ _ => rfl) fun s hs => by have := hs.lt; omega
theorem seekEnd (hF : F.length < 2^63) : BStep c cap e F seekEndBuf seekEndR := by
  have h := seekIn (c := c) (cap := cap) (e := e) (F := F) (fun _ => F.length) (fun _ => F.length) (fun _ _ => rfl) fun _ _ => hF
  exact ⟨h.run⟩

theorem inner_seek (hm : e.maxPos < 2^63) (f : BSt → Int) (g : RSt → Int) (s : BSt) (hs : s.Ok F) (hfg : ∀ t, f s = g (s.plain t)) :
    let x := (do let _ ← innerSeek (f s); Pure.pure () : B Unit) c cap e F s
    x.2.Ok F ∧ ∃ cs ds, Plays c s.tick ds ∧ x.2.tick = s.tick + ds.length ∧ Akin x.1 cs ds ∧
    ∀ c' t, Plays c' t cs → (do let _ ← seekR (g (s.plain t)); Pure.pure () : R Unit) c' e F (s.plain t) = (x.1, x.2.plain (t + cs.length)) := by
  intro x
  have hx : x = B.bind (innerSeek (f s)) (fun _ => Pure.pure ()) c cap e F s := rfl
  clear_value x
  unfold B.bind innerSeek at hx
  have hr : ∀ c' t, (do let _ ← seekR (g (s.plain t)); Pure.pure () : R Unit) c' e F (s.plain t) =
    R.bind (seekR (g (s.plain t))) (fun _ => Pure.pure ()) c' e F (s.plain t) := fun _ _ => rfl
  have ht : ∀ t, (s.plain t).tick = t := fun _ => rfl
  rcases hc : c s.tick with k | _ | _ <;> rw [hc] at hx <;> dsimp only at hx
  · by_cases hp : 0 ≤ f s ∧ f s ≤ e.maxPos
    · rw [if_pos hp] at hx
      dsimp only at hx
      subst hx
      refine ⟨ok_nil rfl (by show (f s).toNat < 2^63; omega), [.give k], [.give k], hc ▸ .one, rfl, .of rfl (Nat.le_refl _), fun c' t h => ?_⟩
      rw [hr]
      unfold R.bind seekR
      rw [ht, h.head]
      dsimp only
      rw [← hfg, if_pos hp]
      rfl
    · rw [if_neg hp] at hx
      dsimp only at hx
      subst hx
      refine ⟨⟨hs.le, hs.eq, hs.lt⟩, [.give k], [.give k], hc ▸ .one, rfl, .of rfl (Nat.le_refl _), fun c' t h => ?_⟩
      rw [hr]
      unfold R.bind seekR
      rw [ht, h.head]
      dsimp only
      rw [← hfg, if_neg hp]
      rfl
  all_goals
    subst hx
    refine ⟨⟨hs.le, hs.eq, hs.lt⟩, [c s.tick], [c s.tick], .one, rfl, .of rfl (Nat.le_refl _), fun c' t h => ?_⟩
    rw [hr]
    unfold R.bind seekR
    rw [ht, h.head, hc]
    rfl

theorem seekStart (hm : e.maxPos < 2^63) (n : Nat) : BStep c cap e F (seekStartBuf n) (seekStartR n) :=
  ⟨fun s hs => inner_seek hm (fun _ => (n : Int)) (fun _ => (n : Int)) s hs fun _ => rfl⟩

theorem seekCur (hm : e.maxPos < 2^63) (n : Int) : BStep c cap e F (seekCurBuf n) (seekCurR n) := by
  refine ⟨fun s hs => ?_⟩
  have hle := hs.le
  have hlt := hs.lt
  have hpos : s.pos = s.cur - s.buf.length := rfl
  unfold seekCurBuf seekCurR
  by_cases hn : -2^63 ≤ n - s.buf.length
  · rw [if_pos hn]
    refine inner_seek hm (fun s => s.cur + (n - s.buf.length)) (fun s => s.pos + n) s hs fun t => ?_
    show (s.cur : Int) + (n - s.buf.length) = (s.pos : Nat) + n
    omega
  · rw [if_neg hn]
    generalize hx : (do let p ← innerSeek (s.cur - s.buf.length); let _ ← innerSeek (p + n); Pure.pure () : B Unit) c cap e F s = x
    replace hx : B.bind (innerSeek (s.cur - s.buf.length)) (fun p => B.bind (innerSeek (p + n)) fun _ => Pure.pure ()) c cap e F s = x := hx
    have hr : ∀ c' t, (do let _ ← seekR ((s.plain t).pos + n); Pure.pure () : R Unit) c' e F (s.plain t) =
      R.bind (seekR (s.pos + n)) (fun _ => Pure.pure ()) c' e F (s.plain t) := fun _ _ => rfl
    have ht : ∀ t, (s.plain t).tick = t := fun _ => rfl
    have hout : ¬ (0 ≤ (s.pos : Int) + n ∧ (s.pos : Int) + n ≤ e.maxPos) := by omega
    unfold B.bind at hx
    unfold innerSeek at hx
    rcases hc : c s.tick with k | _ | _ <;> rw [hc] at hx <;> dsimp only at hx
    · by_cases hp : 0 ≤ (s.cur : Int) - s.buf.length ∧ (s.cur : Int) - s.buf.length ≤ e.maxPos
      · rw [if_pos hp] at hx
        dsimp only at hx
        have he : ((((s.cur : Int) - s.buf.length).toNat : Nat) : Int) = s.pos := by omega
        have he' : ((s.cur : Int) - s.buf.length).toNat = s.pos := by omega
        rw [he'] at hx
        have hpl : ∀ (k t : Nat) (b : Bool), (BSt.plain { cur := s.pos, buf := [], tick := k, hit := b, mem := s.mem } t) = ⟨s.pos, t, b, s.mem⟩ := fun _ _ _ => rfl
        have ho : ∀ (k : Nat) (b : Bool), BSt.Ok F { cur := s.pos, buf := [], tick := k, hit := b, mem := s.mem } := fun _ _ => ok_nil rfl (by show s.pos < 2^63; omega)
        have hpl2 : Plays c s.tick [c s.tick, c (s.tick + 1)] := Plays.append (a := [c s.tick]) .one .one
        rcases hc2 : c (s.tick + 1) with k2 | _ | _ <;> rw [hc2] at hx <;> dsimp only at hx
        · rw [if_neg hout] at hx
          dsimp only at hx
          subst hx
          refine ⟨ho _ _, [.give k2], _, hpl2, rfl, ⟨by simp only [hc, hc2]; rfl, Nat.le_refl _⟩, fun c' t h => ?_⟩
          rw [hr]
          unfold R.bind seekR
          rw [ht, h.head]
          dsimp only
          rw [if_neg hout]
          rfl
        all_goals
          subst hx
          refine ⟨ho _ _, [c (s.tick + 1)], _, hpl2, rfl, ⟨by simp only [hc, hc2]; rfl, Nat.le_refl _⟩, fun c' t h => ?_⟩
          rw [hr]
          unfold R.bind seekR
          rw [ht, h.head, hc2]
          rfl
      · rw [if_neg hp] at hx
        dsimp only at hx
        subst hx
        refine ⟨⟨hs.le, hs.eq, hs.lt⟩, [.give k], [.give k], hc ▸ .one, rfl, .of rfl (Nat.le_refl _), fun c' t h => ?_⟩
        rw [hr]
        unfold R.bind seekR
        rw [ht, h.head]
        dsimp only
        rw [if_neg hout]
        rfl
    all_goals
      subst hx
      refine ⟨⟨hs.le, hs.eq, hs.lt⟩, [c s.tick], [c s.tick], .one, rfl, .of rfl (Nat.le_refl _), fun c' t h => ?_⟩
      rw [hr]
      unfold R.bind seekR
      rw [ht, h.head, hc]
      rfl

end BStep

/-! ### `read_exact` and `read_to_end` -/

theorem take_take_le (l : Bytes) {m n : Nat} : (l.take m).take n = l.take (min m n) := by
  rw [List.take_take, Nat.min_comm]

theorem BSt.Ok.rest {F : Bytes} {s : BSt} (hs : s.Ok F) (n : Nat) (hn : n ≤ s.buf.length) : BSt.Ok F { s with buf := s.buf.drop n } ∧
    BSt.pos { s with buf := s.buf.drop n } = s.pos + n := by
  have hle := hs.le
  have hlt := hs.lt
  have hp : BSt.pos { s with buf := s.buf.drop n } = s.pos + n := by
    show s.cur - (s.buf.drop n).length = s.cur - s.buf.length + n
    rw [List.length_drop]; omega
  refine ⟨⟨by show (s.buf.drop n).length ≤ s.cur; rw [List.length_drop]; omega, ?_, hlt⟩, hp⟩
  rw [hp]
  show s.buf.drop n = (F.drop (s.pos + n)).take (s.buf.drop n).length
  rw [List.length_drop, ← List.drop_drop, ← List.drop_take, ← hs.eq]

/-- One `read` of the `BufReader` is one `read` of an unbuffered reader. -/
theorem bufRead_sim (c : Sched) (cap : Nat) (F : Bytes) (hF : F.length < 2^63) (s : BSt) (n : Nat) (hn : 0 < n) (hs : s.Ok F) :
    ∃ g s' q ds, bufRead c cap F s n = (g, s') ∧ s'.Ok F ∧ s'.hit = s.hit ∧ s'.mem = s.mem ∧ Plays c s.tick ds ∧
      s'.tick = s.tick + ds.length ∧ bads [q] = bads ds ∧ ds.length ≤ 1 ∧
      (match q with
        | .give k => g = .bytes ((F.drop s.pos).take (min (k + 1) n)) ∧ s'.pos = s.pos + ((F.drop s.pos).take (min (k + 1) n)).length
        | .intr => g = .intr ∧ s'.pos = s.pos
        | .err => g = .err ∧ s'.pos = s.pos) := by
  have hle := hs.le
  have hlt := hs.lt
  have key : ∀ k m, s.cur + ((F.drop s.cur).take (min (k + 1) m)).length < 2^63 := by
    intro k m
    rw [List.length_take, List.length_drop]; omega
  unfold bufRead
  by_cases hb : s.buf.isEmpty
  · have hb' : s.buf = [] := List.isEmpty_iff.mp hb
    have hp : s.pos = s.cur := by show s.cur - s.buf.length = _; rw [hb']; rfl
    rw [if_pos hb]
    by_cases hc : cap ≤ n
    · rw [if_pos hc]
      unfold innerRead
      rcases hq : c s.tick with k | _ | _ <;> dsimp only
      · refine ⟨_, _, .give k, [.give k], rfl, BStep.ok_nil hb' (key k n), rfl, rfl, hq ▸ .one, rfl, rfl, Nat.le_refl _, ?_, ?_⟩
        · rw [hp]
        · show _ - s.buf.length = _
          rw [hb', hp]; rfl
      · exact ⟨_, _, .intr, [.intr], rfl, ⟨hs.le, hs.eq, hs.lt⟩, rfl, rfl, hq ▸ .one, rfl, rfl, Nat.le_refl _, rfl, rfl⟩
      · exact ⟨_, _, .err, [.err], rfl, ⟨hs.le, hs.eq, hs.lt⟩, rfl, rfl, hq ▸ .one, rfl, rfl, Nat.le_refl _, rfl, rfl⟩
    · rw [if_neg hc]
      unfold innerRead
      rcases hq : c s.tick with k | _ | _ <;> dsimp only
      · have hk := key k cap
        generalize hbb : (F.drop s.cur).take (min (k + 1) cap) = b at *
        have hlb : b.length = min (min (k + 1) cap) (F.length - s.cur) := by rw [← hbb, List.length_take, List.length_drop]
        have hpre : b = (F.drop s.cur).take b.length := by
          rw [← hbb, List.length_take, ← List.take_eq_take_min]
        have hk1 : BSt.Ok F { s with cur := s.cur + b.length, tick := s.tick + 1, buf := b } := by
          refine ⟨Nat.le_add_left _ _, ?_, hk⟩
          show b = (F.drop (s.cur + b.length - b.length)).take b.length
          rw [Nat.add_sub_cancel]
          exact hpre
        have hp1 : BSt.pos { s with cur := s.cur + b.length, tick := s.tick + 1, buf := b } = s.cur := Nat.add_sub_cancel ..
        have hd : b.drop n = b.drop (min n b.length) := by
          rcases Nat.le_total n b.length with h | h
          · rw [Nat.min_eq_left h]
          · rw [Nat.min_eq_right h, List.drop_length, List.drop_of_length_le h]
        obtain ⟨hk2, hp2⟩ := hk1.rest (min n b.length) (Nat.min_le_right _ _)
        dsimp only at hk2 hp2
        have ht : b.take n = (F.drop s.pos).take (min (b.length - 1 + 1) n) := by
          rw [hp]
          rcases Nat.eq_zero_or_pos b.length with h0 | h0
          · have h1 : F.drop s.cur = [] := List.drop_of_length_le (by omega)
            rw [List.length_eq_zero_iff.mp h0, h1, List.take_nil, List.take_nil]
          · rw [Nat.sub_add_cancel h0, ← take_take_le, ← hpre]
        rw [hd]
        refine ⟨_, _, .give (b.length - 1), [.give k], rfl, hk2, rfl, rfl, hq ▸ .one, rfl, rfl, Nat.le_refl _, ?_, ?_⟩
        · rw [ht]
        · rw [← ht, hp2, hp1, hp, List.length_take]
      · exact ⟨_, _, .intr, [.intr], rfl, ⟨hs.le, hs.eq, hs.lt⟩, rfl, rfl, hq ▸ .one, rfl, rfl, Nat.le_refl _, rfl, rfl⟩
      · exact ⟨_, _, .err, [.err], rfl, ⟨hs.le, hs.eq, hs.lt⟩, rfl, rfl, hq ▸ .one, rfl, rfl, Nat.le_refl _, rfl, rfl⟩
  · rw [if_neg hb]
    have hb' : 0 < s.buf.length := Nat.pos_of_ne_zero fun h => hb (List.isEmpty_iff.mpr (List.length_eq_zero_iff.mp h))
    have hd : s.buf.drop n = s.buf.drop (min n s.buf.length) := by
      rcases Nat.le_total n s.buf.length with h | h
      · rw [Nat.min_eq_left h]
      · rw [Nat.min_eq_right h, List.drop_length, List.drop_of_length_le h]
    obtain ⟨hk2, hp2⟩ := hs.rest (min n s.buf.length) (Nat.min_le_right _ _)
    have ht : s.buf.take n = (F.drop s.pos).take (min (s.buf.length - 1 + 1) n) := by
      rw [Nat.sub_add_cancel hb', ← take_take_le, ← hs.eq]
    rw [hd]
    refine ⟨_, _, .give (s.buf.length - 1), [], rfl, hk2, rfl, rfl, .nil, rfl, rfl, Nat.zero_le _, ?_, ?_⟩
    · rw [ht]
    · rw [← ht, hp2, List.length_take]

theorem readExactLoop_eq (f n : Nat) (acc : Bytes) (c : Sched) (e : Env) (F : Bytes) (s : RSt) : readExactLoop (f + 1) n acc c e F s =
    if n = 0 then (.ok acc, s)
    else
      match c s.tick with
      | .give k =>
        if ((F.drop s.pos).take (min (k + 1) n)).isEmpty then
          (.err .io, { s with pos := s.pos + ((F.drop s.pos).take (min (k + 1) n)).length, tick := s.tick + 1 })
        else readExactLoop f (n - ((F.drop s.pos).take (min (k + 1) n)).length) (acc ++ (F.drop s.pos).take (min (k + 1) n)) c e F
          { s with pos := s.pos + ((F.drop s.pos).take (min (k + 1) n)).length, tick := s.tick + 1 }
      | .intr => readExactLoop f n acc c e F { s with tick := s.tick + 1 }
      | .err => (.err .io, { s with tick := s.tick + 1, hit := true }) := rfl

theorem readExactLoopBuf_eq (f n : Nat) (acc : Bytes) (c : Sched) (cap : Nat) (e : Env) (F : Bytes) (s : BSt) :
    readExactLoopBuf (f + 1) n acc c cap e F s =
    if n = 0 then (.ok acc, s)
    else
      match bufRead c cap F s n with
      | (.bytes b, s') =>
        if b.isEmpty then (.err .io, s') else readExactLoopBuf f (n - b.length) (acc ++ b) c cap e F s'
      | (.intr, s') => readExactLoopBuf f n acc c cap e F s'
      | (.err, s') => (.err .io, { s' with hit := true }) := rfl

theorem readToEndLoop_eq (f : Nat) (acc : Bytes) (c : Sched) (e : Env) (F : Bytes) (s : RSt) : readToEndLoop (f + 1) acc c e F s =
    match c s.tick with
    | .give k =>
      if ((F.drop s.pos).take (k + 1)).isEmpty then
        (.ok acc, { s with pos := s.pos + ((F.drop s.pos).take (k + 1)).length, tick := s.tick + 1 })
      else readToEndLoop f (acc ++ (F.drop s.pos).take (k + 1)) c e F
        { s with pos := s.pos + ((F.drop s.pos).take (k + 1)).length, tick := s.tick + 1 }
    | .intr => readToEndLoop f acc c e F { s with tick := s.tick + 1 }
    | .err => (.err .io, { s with tick := s.tick + 1, hit := true }) := rfl

theorem readToEndLoopBuf_eq (f : Nat) (acc : Bytes) (c : Sched) (cap : Nat) (e : Env) (F : Bytes) (s : BSt) :
    readToEndLoopBuf (f + 1) acc c cap e F s =
    match c s.tick with
    | .give k =>
      if ((F.drop s.cur).take (k + 1)).isEmpty then
        (.ok acc, { s with cur := s.cur + ((F.drop s.cur).take (k + 1)).length, tick := s.tick + 1 })
      else readToEndLoopBuf f (acc ++ (F.drop s.cur).take (k + 1)) c cap e F
        { s with cur := s.cur + ((F.drop s.cur).take (k + 1)).length, tick := s.tick + 1 }
    | .intr => readToEndLoopBuf f acc c cap e F { s with tick := s.tick + 1 }
    | .err => (.err .io, { s with tick := s.tick + 1, hit := true }) := rfl

theorem readExactLoopBuf_sim (c : Sched) (cap : Nat) (e : Env) (F : Bytes) (hF : F.length < 2^63) (f : Nat) : ∀ n acc,
    BStep c cap e F (readExactLoopBuf f n acc) (readExactLoop f n acc) := by
  induction f with
  | zero => intro n acc; exact BStep.outOfFuel
  | succ f ih =>
    intro n acc
    refine ⟨fun s hs => ?_⟩
    by_cases hn : n = 0
    · have e1 : readExactLoopBuf (f + 1) n acc c cap e F s = (.ok acc, s) := by rw [readExactLoopBuf_eq, if_pos hn]
      rw [e1]
      refine ⟨hs, [], [], .nil, rfl, .of rfl (Nat.le_refl _), fun c' t _ => ?_⟩
      rw [readExactLoop_eq, if_pos hn]; rfl
    obtain ⟨g, s', q, ds, h1, h2, h3, h4, h5, h6, h7, h9, h8⟩ := bufRead_sim c cap F hF s n (Nat.pos_of_ne_zero hn) hs
    have e1 := readExactLoopBuf_eq f n acc c cap e F s
    rw [if_neg hn, h1] at e1
    have e2 := fun c' t => readExactLoop_eq f n acc c' e F (s.plain t)
    simp only [if_neg hn, show ∀ t, (s.plain t).tick = t from fun _ => rfl, show ∀ t, (s.plain t).pos = s.pos from fun _ => rfl] at e2
    rw [e1]
    rcases q with k | _ | _ <;> dsimp only at h8
    · obtain ⟨rfl, h8⟩ := h8
      dsimp only
      generalize hbb : (F.drop s.pos).take (min (k + 1) n) = b at *
      have hpl : ∀ t, (⟨s.pos + b.length, t + 1, (s.plain t).hit, (s.plain t).mem⟩ : RSt) = s'.plain (t + 1) := by
        intro t; rw [← h8]; show (⟨_, _, s.hit, s.mem⟩ : RSt) = ⟨_, _, s'.hit, s'.mem⟩; rw [h3, h4]
      by_cases hb : b.isEmpty
      · rw [if_pos hb]
        refine ⟨h2, [.give k], ds, h5, h6, .of h7 h9, fun c' t h => ?_⟩
        rw [e2 c' t, h.head]; dsimp only; rw [hbb, if_pos hb, hpl]; rfl
      · rw [if_neg hb]
        obtain ⟨i1, cs', ds', i2, i3, i4, i5⟩ := (ih (n - b.length) (acc ++ b)).run s' h2
        refine ⟨i1, .give k :: cs', ds ++ ds', h5.append (by rw [← h6]; exact i2), by rw [i3, h6, List.length_append, Nat.add_assoc], ?_, fun c' t h => ?_⟩
        · exact Akin.append (a := ()) (cs := [_]) (.of h7 h9) i4
        · rw [e2 c' t, h.head]; dsimp only; rw [hbb, if_neg hb, hpl, i5 c' _ h.tail, List.length_cons, Nat.add_assoc, Nat.add_comm 1]
    · obtain ⟨rfl, h8⟩ := h8
      have hpl : ∀ t, (⟨s.pos, t + 1, (s.plain t).hit, (s.plain t).mem⟩ : RSt) = s'.plain (t + 1) := by
        intro t; show (⟨s.pos, _, s.hit, s.mem⟩ : RSt) = ⟨s'.pos, _, s'.hit, s'.mem⟩; rw [h3, h4, h8]
      obtain ⟨i1, cs', ds', i2, i3, i4, i5⟩ := (ih n acc).run s' h2
      refine ⟨i1, .intr :: cs', ds ++ ds', h5.append (by rw [← h6]; exact i2), ?_, ?_, fun c' t h => ?_⟩
      · dsimp only
        rw [i3, h6, List.length_append, Nat.add_assoc]
      · exact Akin.append (a := ()) (cs := [_]) (.of h7 h9) i4
      · rw [e2 c' t, h.head]; dsimp only; rw [hpl, i5 c' _ h.tail, List.length_cons, Nat.add_assoc, Nat.add_comm 1]
    · obtain ⟨rfl, h8⟩ := h8
      refine ⟨⟨h2.le, h2.eq, h2.lt⟩, [.err], ds, h5, h6, .of h7 h9, fun c' t h => ?_⟩
      rw [e2 c' t, h.head]
      show (_, (⟨s.pos, t + 1, true, s.mem⟩ : RSt)) = (_, (⟨s'.pos, t + 1, true, s'.mem⟩ : RSt))
      rw [h4, h8]

theorem BStep.readExact {c : Sched} {cap : Nat} {e : Env} {F : Bytes} (hF : F.length < 2^63) (hf : 2 ≤ e.fuel) (n : Nat) :
    BStep c cap e F (readExactBuf n) (readExactR n) := by
  refine ⟨fun s hs => ?_⟩
  by_cases hn : n ≤ s.buf.length
  · have e1 : readExactBuf n c cap e F s = (.ok (s.buf.take n), { s with buf := s.buf.drop n }) := by unfold readExactBuf; rw [if_pos hn]
    rw [e1]
    obtain ⟨h1, h2⟩ := hs.rest n hn
    obtain ⟨f, hf'⟩ : ∃ f, e.fuel = f + 2 := ⟨e.fuel - 2, by omega⟩
    rcases Nat.eq_zero_or_pos n with rfl | h0
    · refine ⟨h1, [], [], .nil, rfl, .of rfl (Nat.le_refl _), fun c' t _ => ?_⟩
      unfold readExactR
      rw [hf', readExactLoop_eq, if_pos rfl]
      rfl
    · refine ⟨h1, [.give (n - 1)], [], .nil, rfl, .of rfl (Nat.zero_le _), fun c' t h => ?_⟩
      unfold readExactR
      rw [hf', readExactLoop_eq, if_neg (by omega), show (s.plain t).tick = t from rfl, h.head]
      have hb : (F.drop s.pos).take (min (n - 1 + 1) n) = s.buf.take n := by
        rw [Nat.sub_add_cancel h0, Nat.min_self]
        conv => rhs; rw [hs.eq]
        rw [take_take_le, Nat.min_eq_right hn]
      have hl : (s.buf.take n).length = n := by rw [List.length_take]; omega
      dsimp only
      rw [show (s.plain t).pos = s.pos from rfl, hb]
      rw [if_neg (fun h => by rw [List.isEmpty_iff.mp h] at hl; simp at hl; omega), hl, Nat.sub_self, readExactLoop_eq, if_pos rfl]
      show (_, (⟨s.pos + n, t + 1, s.hit, s.mem⟩ : RSt)) = (_, (⟨_, t + 1, s.hit, s.mem⟩ : RSt))
      rw [h2]
      rfl
  · have e1 : readExactBuf n c cap e F s = readExactLoopBuf e.fuel n [] c cap e F s := by unfold readExactBuf; rw [if_neg hn]
    rw [e1]
    exact (readExactLoopBuf_sim c cap e F hF e.fuel n []).run s hs

theorem readToEndLoopBuf_sim (c : Sched) (cap : Nat) (e : Env) (F : Bytes) (hF : F.length < 2^63) (f : Nat) : ∀ acc s, s.Ok F → s.buf = [] →
    (readToEndLoopBuf f acc c cap e F s).2.Ok F ∧ ∃ cs ds, Plays c s.tick ds ∧
      (readToEndLoopBuf f acc c cap e F s).2.tick = s.tick + ds.length ∧ Akin (readToEndLoopBuf f acc c cap e F s).1 cs ds ∧
      ∀ c' t, Plays c' t cs → readToEndLoop f acc c' e F (s.plain t) =
        ((readToEndLoopBuf f acc c cap e F s).1, (readToEndLoopBuf f acc c cap e F s).2.plain (t + cs.length)) := by
  induction f with
  | zero => intro acc s hs _; exact ⟨hs, [], [], .nil, rfl, .of rfl (Nat.le_refl _), fun _ _ _ => rfl⟩
  | succ f ih =>
    intro acc s hs hb
    have hlt := hs.lt
    have hp : s.pos = s.cur := by show s.cur - s.buf.length = _; rw [hb]; rfl
    rcases hq : c s.tick with k | _ | _
    · generalize hbb : (F.drop s.cur).take (k + 1) = b
      have hlb : b.length = min (k + 1) (F.length - s.cur) := by rw [← hbb, List.length_take, List.length_drop]
      have e1 : readToEndLoopBuf (f + 1) acc c cap e F s = if b.isEmpty then (.ok acc, { s with cur := s.cur + b.length, tick := s.tick + 1 })
          else readToEndLoopBuf f (acc ++ b) c cap e F { s with cur := s.cur + b.length, tick := s.tick + 1 } := by
        rw [readToEndLoopBuf_eq, hq, ← hbb]
      have hk : BSt.Ok F { s with cur := s.cur + b.length, tick := s.tick + 1 } := BStep.ok_nil hb (by show s.cur + b.length < 2^63; omega)
      have hpl : ∀ t, ({ s.plain t with pos := s.pos + b.length, tick := t + 1 } : RSt) =
          BSt.plain { s with cur := s.cur + b.length, tick := s.tick + 1 } (t + 1) := by
        intro t
        show (⟨s.pos + b.length, t + 1, s.hit, s.mem⟩ : RSt) = ⟨s.cur + b.length - s.buf.length, t + 1, s.hit, s.mem⟩
        rw [hp, hb]; rfl
      have e2 : ∀ c' t, c' t = .give k → readToEndLoop (f + 1) acc c' e F (s.plain t) =
          if b.isEmpty then (.ok acc, BSt.plain { s with cur := s.cur + b.length, tick := s.tick + 1 } (t + 1))
          else readToEndLoop f (acc ++ b) c' e F (BSt.plain { s with cur := s.cur + b.length, tick := s.tick + 1 } (t + 1)) := by
        intro c' t h
        rw [readToEndLoop_eq, show (s.plain t).tick = t from rfl, h, ← hpl, ← hbb, ← hp]
        rfl
      rw [e1]
      by_cases hbe : b.isEmpty
      · rw [if_pos hbe]
        exact ⟨hk, [.give k], [.give k], hq ▸ .one, rfl, .of rfl (Nat.le_refl _), fun c' t h => by rw [e2 c' t h.head, if_pos hbe]; rfl⟩
      · rw [if_neg hbe]
        obtain ⟨i1, cs', ds', i2, i3, i4, i5⟩ := ih (acc ++ b) _ hk hb
        refine ⟨i1, .give k :: cs', .give k :: ds', Plays.append (a := [_]) (hq ▸ .one) i2, ?_, ?_, fun c' t h => ?_⟩
        · rw [i3]; show s.tick + 1 + _ = _; rw [List.length_cons]; omega
        · exact Akin.append (a := ()) (cs := [_]) (ds := [_]) (.of rfl (Nat.le_refl _)) i4
        · rw [e2 c' t h.head, if_neg hbe, i5 c' _ h.tail, List.length_cons, Nat.add_assoc, Nat.add_comm 1]
    · have e1 : readToEndLoopBuf (f + 1) acc c cap e F s = readToEndLoopBuf f acc c cap e F { s with tick := s.tick + 1 } := by
        rw [readToEndLoopBuf_eq, hq]
      rw [e1]
      obtain ⟨i1, cs', ds', i2, i3, i4, i5⟩ := ih acc { s with tick := s.tick + 1 } ⟨hs.le, hs.eq, hs.lt⟩ hb
      refine ⟨i1, .intr :: cs', .intr :: ds', Plays.append (a := [_]) (hq ▸ .one) i2, ?_, ?_, fun c' t h => ?_⟩
      · rw [i3]; show s.tick + 1 + _ = _; rw [List.length_cons]; omega
      · exact Akin.append (a := ()) (cs := [_]) (ds := [_]) (.of rfl (Nat.le_refl _)) i4
      · rw [readToEndLoop_eq, show (s.plain t).tick = t from rfl, h.head]
        show readToEndLoop f acc c' e F (BSt.plain { s with tick := s.tick + 1 } (t + 1)) = _
        rw [i5 c' _ h.tail, List.length_cons, Nat.add_assoc, Nat.add_comm 1]
    · have e1 : readToEndLoopBuf (f + 1) acc c cap e F s = (.err .io, { s with tick := s.tick + 1, hit := true }) := by
        rw [readToEndLoopBuf_eq, hq]
      rw [e1]
      refine ⟨⟨hs.le, hs.eq, hs.lt⟩, [.err], [.err], hq ▸ .one, rfl, .of rfl (Nat.le_refl _), fun c' t h => ?_⟩
      rw [readToEndLoop_eq, show (s.plain t).tick = t from rfl, h.head]
      rfl

theorem BStep.readToEnd {c : Sched} {cap : Nat} {e : Env} {F : Bytes} (hF : F.length < 2^63) (hf : 2 ≤ e.fuel) :
    BStep c cap e F readToEndBuf readToEndR := by
  refine ⟨fun s hs => ?_⟩
  by_cases hb : s.buf.isEmpty
  · have e1 : readToEndBuf c cap e F s = readToEndLoopBuf e.fuel [] c cap e F s := by unfold readToEndBuf; rw [if_pos hb]
    rw [e1]
    exact readToEndLoopBuf_sim c cap e F hF e.fuel [] s hs (List.isEmpty_iff.mp hb)
  · have e1 : readToEndBuf c cap e F s = readToEndLoopBuf (e.fuel - 1) s.buf c cap e F { s with buf := [] } := by
      unfold readToEndBuf; rw [if_neg hb]
    rw [e1]
    have hb' : 0 < s.buf.length := Nat.pos_of_ne_zero fun h => hb (List.isEmpty_iff.mpr (List.length_eq_zero_iff.mp h))
    obtain ⟨i1, cs', ds', i2, i3, i4, i5⟩ := readToEndLoopBuf_sim c cap e F hF (e.fuel - 1) s.buf { s with buf := [] }
      (BStep.ok_nil rfl hs.lt) rfl
    refine ⟨i1, .give (s.buf.length - 1) :: cs', ds', i2, i3, Akin.append (a := ()) (cs := [_]) (ds := []) (.of rfl (Nat.zero_le _)) i4, fun c' t h => ?_⟩
    obtain ⟨f, hf'⟩ : ∃ f, e.fuel = f + 1 := ⟨e.fuel - 1, by omega⟩
    rw [hf', Nat.add_sub_cancel] at i5 ⊢
    unfold readToEndR
    rw [hf', readToEndLoop_eq, show (s.plain t).tick = t from rfl, h.head]
    have hle := hs.le
    show (if ((F.drop s.pos).take (s.buf.length - 1 + 1)).isEmpty then _ else
      readToEndLoop f ([] ++ (F.drop s.pos).take (s.buf.length - 1 + 1)) c' e F
        ⟨s.pos + ((F.drop s.pos).take (s.buf.length - 1 + 1)).length, t + 1, s.hit, s.mem⟩) = _
    rw [Nat.sub_add_cancel hb', ← hs.eq, if_neg hb, List.nil_append, show s.pos + s.buf.length = s.cur by
      show s.cur - s.buf.length + _ = _; omega]
    have := i5 c' _ h.tail
    rw [show BSt.plain { s with buf := [] } (t + 1) = ⟨s.cur, t + 1, s.hit, s.mem⟩ from rfl] at this
    rw [this, List.length_cons, Nat.add_assoc, Nat.add_comm 1]

/-! ### All functions -/

/-- Files and positions are below 2^63, and there are iterations. -/
structure Fits (e : Env) (F : Bytes) : Prop where
  file : F.length < 2^63
  pos : e.maxPos < 2^63
  fuel : 2 ≤ e.fuel

/-- `BStep`, if the file fits. -/
def BSim (c : Sched) (cap : Nat) (e : Env) (F : Bytes) {α} (b : B α) (r : R α) : Prop := Fits e F → BStep c cap e F b r

namespace BSim
variable {c : Sched} {cap : Nat} {e : Env} {F : Bytes}
theorem pure {α} (a : α) : BSim c cap e F (Pure.pure a : B α) (Pure.pure a) := fun _ => .pure a
theorem bind {α β} {b : B α} {r : R α} {g : α → B β} {f : α → R β} (h : BSim c cap e F b r) (hf : ∀ a, BSim c cap e F (g a) (f a)) :
    BSim c cap e F (b >>= g) (r >>= f) := fun hx => .bind (h hx) fun a => hf a hx
theorem E {α} (m : E α) : BSim c cap e F m.b m.r := fun _ => .E m
theorem fail {α} (k : ErrKind) : BSim c cap e F (failBuf k : B α) (failR k) := fun _ => .fail k
theorem outOfFuel {α} : BSim c cap e F (outOfFuelBuf : B α) outOfFuelR := fun _ => .outOfFuel
theorem getFuel : BSim c cap e F getFuelBuf getFuelR := fun _ => .getFuel
theorem ask (n : Nat) : BSim c cap e F (askBuf n) (askR n) := fun _ => .ask n
theorem alloc (n : Nat) : BSim c cap e F (allocBuf n) (allocR n) := fun _ => .alloc n
theorem ite {α} {q : Prop} [Decidable q] {b b' : B α} {r r' : R α} (h : BSim c cap e F b r) (h' : BSim c cap e F b' r') :
    BSim c cap e F (if q then b else b') (if q then r else r') := fun hx => .ite (h hx) (h' hx)
theorem tell : BSim c cap e F tellBuf tellR := fun _ => .tell
theorem seekEnd : BSim c cap e F seekEndBuf seekEndR := fun h => .seekEnd h.file
theorem seekCur (n : Int) : BSim c cap e F (seekCurBuf n) (seekCurR n) := fun h => .seekCur h.pos n
theorem seekStart (n : Nat) : BSim c cap e F (seekStartBuf n) (seekStartR n) := fun h => .seekStart h.pos n
theorem readExact (n : Nat) : BSim c cap e F (readExactBuf n) (readExactR n) := fun h => .readExact h.file h.fuel n
theorem readToEnd : BSim c cap e F readToEndBuf readToEndR := fun h => .readToEnd h.file h.fuel
end BSim

theorem BSim.bind2 {c : Sched} {cap : Nat} {e : Env} {F : Bytes} {α β γ} {r : B (α × β)} {p : R (α × β)} {g : α × β → B γ} {f : α × β → R γ} (h : BSim c cap e F r p)
    (hf : ∀ a b, BSim c cap e F (g (a, b)) (f (a, b))) : BSim c cap e F (r >>= g) (p >>= f) := BSim.bind h fun ⟨a, b⟩ => hf a b

/-- One step of the simulation. -/
macro "bsim" "[" ts:term,* "]" : tactic =>
  `(tactic| repeat' (first
    | with_reducible exact BSim.pure _
    | with_reducible exact BSim.fail _
    | with_reducible exact BSim.E _
    | with_reducible exact BSim.alloc _
    | with_reducible exact BSim.outOfFuel
    | with_reducible exact BSim.getFuel
    | with_reducible exact BSim.tell
    | with_reducible exact BSim.seekEnd
    | with_reducible exact BSim.seekCur _
    | with_reducible exact BSim.seekStart _
    | with_reducible exact BSim.readExact _
    | with_reducible exact BSim.readToEnd
    $[| with_reducible exact $ts]*
    | with_reducible apply BSim.ite
    | with_reducible apply BSim.bind2
    | with_reducible apply BSim.bind
    | intro _
    | dsimp only))

section
variable {c : Sched} {cap : Nat} {e : Env} {F : Bytes}

theorem BSim.readU8 : BSim c cap e F readU8Buf readU8R := by unfold readU8Buf readU8R; bsim []
theorem BSim.readU16 : BSim c cap e F readU16Buf readU16R := by unfold readU16Buf readU16R; bsim []
theorem BSim.readU32 : BSim c cap e F readU32Buf readU32R := by unfold readU32Buf readU32R; bsim []
theorem BSim.readU64 : BSim c cap e F readU64Buf readU64R := by unfold readU64Buf readU64R; bsim []
theorem BSim.readU8Vec (n : Nat) : BSim c cap e F (readU8VecBuf n) (readU8VecR n) := by unfold readU8VecBuf readU8VecR; bsim []
theorem BSim.readUtf8 (n : Nat) : BSim c cap e F (readUtf8Buf n) (readUtf8R n) := by
  unfold readUtf8Buf readUtf8R
  refine BSim.bind (BSim.readU8Vec _) fun b => ?_
  cases utf8Dec b <;> bsim []
theorem BSim.readUtf16 (n : Nat) : BSim c cap e F (readUtf16Buf n) (readUtf16R n) := by
  unfold readUtf16Buf readUtf16R
  refine BSim.bind (BSim.alloc _) fun _ => BSim.bind (BSim.readExact _) fun b => ?_
  cases utf16Dec (units16 b) <;> bsim []
theorem BSim.remainingStreamLen : BSim c cap e F remainingStreamLenBuf remainingStreamLenR := by
  unfold remainingStreamLenBuf remainingStreamLenR; bsim []
theorem BSim.dataParse (t n : Nat) : BSim c cap e F (Data.parseBuf t n) (Data.parseR t n) := by
  by_cases h0 : t = 0
  · subst h0; exact BSim.bind (BSim.readU8Vec n) fun _ => BSim.pure _
  by_cases h1 : t = 1
  · subst h1; exact BSim.bind (BSim.readUtf8 n) fun _ => BSim.pure _
  by_cases h2 : t = 2
  · subst h2; exact BSim.bind (BSim.readUtf16 n) fun _ => BSim.pure _
  by_cases h13 : t = 13
  · subst h13; exact BSim.bind (BSim.readU8Vec n) fun _ => BSim.pure _
  by_cases h14 : t = 14
  · subst h14; exact BSim.bind (BSim.readU8Vec n) fun _ => BSim.pure _
  by_cases h21 : t = 21
  · subst h21; exact BSim.bind (BSim.readU8Vec n) fun _ => BSim.pure _
  by_cases h27 : t = 27
  · subst h27; exact BSim.bind (BSim.readU8Vec n) fun _ => BSim.pure _
  have e1 : Data.parseBuf t n = failBuf (.unknownDataType t) := by
    unfold Data.parseBuf; split <;> first | contradiction | rfl
  have e2 : Data.parseR t n = failR (.unknownDataType t) := by
    unfold Data.parseR; split <;> first | contradiction | rfl
  rw [e1, e2]
  exact BSim.fail _
theorem BSim.parseHead : BSim c cap e F parseHeadBuf parseHeadR := by
  unfold parseHeadBuf parseHeadR; bsim [BSim.readU32, BSim.readU64]
theorem BSim.parseFullHead : BSim c cap e F parseFullHeadBuf parseFullHeadR := by
  unfold parseFullHeadBuf parseFullHeadR; bsim [BSim.readU8]
theorem BSim.findBounds (n : Size) : BSim c cap e F (findBoundsBuf n) (findBoundsR n) := by
  unfold findBoundsBuf findBoundsR; bsim []
theorem BSim.seekToEnd (b : AtomBounds) : BSim c cap e F (seekToEndBuf b) (seekToEndR b) := by
  unfold seekToEndBuf seekToEndR; bsim []
theorem BSim.skipContent (b : Head) : BSim c cap e F (skipContentBuf b) (skipContentR b) := by
  unfold skipContentBuf skipContentR; bsim []
theorem BSim.walk {σ : Type} {l : Mp4.E Nat} {g : σ → Head → B σ} {f : σ → Head → R σ} (h : ∀ s x, BSim c cap e F (g s x) (f s x)) (n : Nat) :
    ∀ s q, BSim c cap e F (walkBuf l g n s q) (walkR l f n s q) := by
  induction n with
  | zero => intro s q; exact BSim.outOfFuel
  | succ n ih => intro s q; unfold walkBuf walkR; bsim [BSim.parseHead, h _ _, ih _ _]
theorem BSim.loop {σ : Type} {l : Mp4.E Nat} {g : σ → Head → B σ} {f : σ → Head → R σ} (h : ∀ s x, BSim c cap e F (g s x) (f s x)) (s : σ) (q : Nat) :
    BSim c cap e F (loopBuf l g s q) (loopR l f s q) := by
  unfold loopBuf loopR; bsim [BSim.walk h _ _ _]
/-- As `bsim`, with loops. -/
macro "bsimLoop" "[" ts:term,* "]" : tactic =>
  `(tactic| repeat' (first
    | with_reducible exact BSim.pure _
    | with_reducible exact BSim.fail _
    | with_reducible exact BSim.E _
    | with_reducible exact BSim.alloc _
    | with_reducible exact BSim.outOfFuel
    | with_reducible exact BSim.getFuel
    | with_reducible exact BSim.tell
    | with_reducible exact BSim.seekEnd
    | with_reducible exact BSim.seekCur _
    | with_reducible exact BSim.seekStart _
    | with_reducible exact BSim.readExact _
    | with_reducible exact BSim.readToEnd
    $[| with_reducible exact $ts]*
    | with_reducible apply BSim.ite
    | with_reducible apply BSim.loop
    | with_reducible apply BSim.bind2
    | with_reducible apply BSim.bind
    | intro _
    | dsimp only))

theorem BSim.parseFtyp : BSim c cap e F parseFtypBuf parseFtypR := by
  unfold parseFtypBuf parseFtypR; bsim [BSim.parseHead, BSim.readUtf8 _]
theorem BSim.parseMvhd (n : Size) : BSim c cap e F (parseMvhdBuf n) (parseMvhdR n) := by
  unfold parseMvhdBuf parseMvhdR
  bsim [BSim.findBounds _, BSim.parseFullHead, BSim.readU32, BSim.readU64, BSim.seekToEnd _]
theorem BSim.descHeadLoop (k : Nat) : ∀ a b, BSim c cap e F (descHeadLoopBuf k a b) (descHeadLoopR k a b) := by
  induction k with
  | zero => intro a b; exact BSim.pure _
  | succ k ih => intro a b; unfold descHeadLoopBuf descHeadLoopR; bsim [BSim.readU8, ih _ _]
theorem BSim.parseDescHead : BSim c cap e F parseDescHeadBuf parseDescHeadR := by
  unfold parseDescHeadBuf parseDescHeadR; bsim [BSim.readU8, BSim.descHeadLoop _ _ _]
theorem BSim.parseDsDesc (i : Mp4a) (n : Nat) : BSim c cap e F (parseDsDescBuf i n) (parseDsDescR i n) := by
  unfold parseDsDescBuf parseDsDescR; bsim [BSim.readU16]
theorem BSim.descWalk {w : UInt8} {g : Mp4a → Nat → B Mp4a} {f : Mp4a → Nat → R Mp4a} {l : Nat} (h : ∀ i n, BSim c cap e F (g i n) (f i n)) (n : Nat) :
    ∀ i q, BSim c cap e F (descWalkBuf w g l n i q) (descWalkR w f l n i q) := by
  induction n with
  | zero => intro s q; exact BSim.outOfFuel
  | succ n ih =>
    intro s q; unfold descWalkBuf descWalkR
    apply BSim.ite
    · refine BSim.bind BSim.parseDescHead ?_
      rintro ⟨t, a, b⟩
      bsim [h _ _, ih _ _]
    · exact BSim.pure _
theorem BSim.parseDcDesc (i : Mp4a) (n : Nat) : BSim c cap e F (parseDcDescBuf i n) (parseDcDescR i n) := by
  unfold parseDcDescBuf parseDcDescR
  exact BSim.bind (BSim.seekCur _) fun _ => BSim.bind BSim.readU32 fun _ => BSim.bind BSim.readU32 fun _ =>
    BSim.bind BSim.getFuel fun _ => BSim.descWalk BSim.parseDsDesc _ _ _
theorem BSim.parseEsDesc (i : Mp4a) (n : Nat) : BSim c cap e F (parseEsDescBuf i n) (parseEsDescR i n) := by
  unfold parseEsDescBuf parseEsDescR
  exact BSim.bind (BSim.seekCur _) fun _ => BSim.bind BSim.getFuel fun _ => BSim.descWalk BSim.parseDcDesc _ _ _
theorem BSim.parseEsds (i : Mp4a) (n : Size) : BSim c cap e F (parseEsdsBuf i n) (parseEsdsR i n) := by
  unfold parseEsdsBuf parseEsdsR
  refine BSim.bind BSim.parseFullHead ?_
  rintro ⟨v, _⟩
  refine BSim.ite (BSim.fail _) (BSim.bind BSim.parseDescHead ?_)
  rintro ⟨t, a, b⟩
  exact BSim.ite (BSim.fail _) (BSim.bind (BSim.E _) fun _ => BSim.bind (BSim.E _) fun _ => BSim.bind (BSim.E _) fun _ =>
    BSim.parseEsDesc _ _)
theorem BSim.parseMp4a (n : Size) : BSim c cap e F (parseMp4aBuf n) (parseMp4aR n) := by
  unfold parseMp4aBuf parseMp4aR; bsim [BSim.findBounds _, BSim.parseHead, BSim.parseEsds _ _, BSim.seekToEnd _]
theorem BSim.parseStsd (n : Size) : BSim c cap e F (parseStsdBuf n) (parseStsdR n) := by
  unfold parseStsdBuf parseStsdR
  bsimLoop [BSim.parseFullHead, BSim.parseMp4a _, BSim.skipContent _]
theorem BSim.parseStbl (n : Size) : BSim c cap e F (parseStblBuf n) (parseStblR n) := by
  unfold parseStblBuf parseStblR
  apply BSim.loop; bsim [BSim.parseStsd _, BSim.skipContent _]
theorem BSim.parseMinf (n : Size) : BSim c cap e F (parseMinfBuf n) (parseMinfR n) := by
  unfold parseMinfBuf parseMinfR
  apply BSim.loop; bsim [BSim.parseStbl _, BSim.skipContent _]
theorem BSim.parseMdia (n : Size) : BSim c cap e F (parseMdiaBuf n) (parseMdiaR n) := by
  unfold parseMdiaBuf parseMdiaR
  apply BSim.loop; bsim [BSim.parseMinf _, BSim.skipContent _]
theorem BSim.parseTrak (n : Size) : BSim c cap e F (parseTrakBuf n) (parseTrakR n) := by
  unfold parseTrakBuf parseTrakR
  apply BSim.loop; bsim [BSim.parseMdia _, BSim.skipContent _]
theorem BSim.itemHandle (s : ItemSt) (h : Head) : BSim c cap e F (itemHandleBuf s h) (itemHandleR s h) := by
  unfold itemHandleBuf itemHandleR
  bsim [BSim.parseFullHead, BSim.dataParse _ _, BSim.readUtf8 _, BSim.skipContent _]
theorem BSim.parseItem (fc : Fourcc) (n : Nat) : BSim c cap e F (parseItemBuf fc n) (parseItemR fc n) := by
  unfold parseItemBuf parseItemR
  bsim [BSim.loop BSim.itemHandle _ _]
theorem BSim.parseIlst (n : Size) : BSim c cap e F (parseIlstBuf n) (parseIlstR n) := by
  unfold parseIlstBuf parseIlstR
  apply BSim.loop; bsim [BSim.parseItem _ _, BSim.skipContent _]
theorem BSim.parseMeta (n : Size) : BSim c cap e F (parseMetaBuf n) (parseMetaR n) := by
  unfold parseMetaBuf parseMetaR
  bsimLoop [BSim.parseFullHead, BSim.parseIlst _, BSim.skipContent _]
theorem BSim.parseUdta (n : Size) : BSim c cap e F (parseUdtaBuf n) (parseUdtaR n) := by
  unfold parseUdtaBuf parseUdtaR
  apply BSim.loop; bsim [BSim.parseMeta _, BSim.skipContent _]
theorem BSim.moovHandle (s : Moov) (h : Head) : BSim c cap e F (moovHandleBuf s h) (moovHandleR s h) := by
  unfold moovHandleBuf moovHandleR
  bsim [BSim.parseMvhd _, BSim.parseTrak _, BSim.parseUdta _, BSim.skipContent _]
theorem BSim.parseMoov (n : Size) : BSim c cap e F (parseMoovBuf n) (parseMoovR n) := BSim.loop BSim.moovHandle _ _
theorem BSim.topWalk (l n : Nat) : ∀ q, BSim c cap e F (topWalkBuf l n q) (topWalkR l n q) := by
  induction n with
  | zero => intro q; exact BSim.outOfFuel
  | succ n ih =>
    intro q; unfold topWalkBuf topWalkR
    bsim [BSim.parseHead, BSim.parseMoov _, BSim.skipContent _, ih _]
theorem BSim.readTag : BSim c cap e F readTagBuf readTagR := by
  unfold readTagBuf readTagR
  bsim [BSim.parseFtyp, BSim.remainingStreamLen, BSim.topWalk _ _ _]

theorem BSim.findLeaf (n : Size) : BSim c cap e F (findLeafBuf n) (findLeafR n) := by
  unfold findLeafBuf findLeafR; bsim [BSim.findBounds _, BSim.seekToEnd _]
theorem BSim.findStbl (n : Size) : BSim c cap e F (findStblBuf n) (findStblR n) := by
  unfold findStblBuf findStblR
  bsimLoop [BSim.findBounds _, BSim.findLeaf _, BSim.skipContent _]
theorem BSim.findMinf (n : Size) : BSim c cap e F (findMinfBuf n) (findMinfR n) := by
  unfold findMinfBuf findMinfR
  bsimLoop [BSim.findBounds _, BSim.findStbl _, BSim.skipContent _]
theorem BSim.findMdia (n : Size) : BSim c cap e F (findMdiaBuf n) (findMdiaR n) := by
  unfold findMdiaBuf findMdiaR
  bsimLoop [BSim.findBounds _, BSim.findMinf _, BSim.skipContent _]
theorem BSim.findTrak (n : Size) : BSim c cap e F (findTrakBuf n) (findTrakR n) := by
  unfold findTrakBuf findTrakR
  bsimLoop [BSim.findBounds _, BSim.findMdia _, BSim.skipContent _]
theorem BSim.findMeta (n : Size) : BSim c cap e F (findMetaBuf n) (findMetaR n) := by
  unfold findMetaBuf findMetaR
  bsimLoop [BSim.findBounds _, BSim.parseFullHead, BSim.findLeaf _, BSim.skipContent _]
theorem BSim.findUdta (n : Size) : BSim c cap e F (findUdtaBuf n) (findUdtaR n) := by
  unfold findUdtaBuf findUdtaR
  bsimLoop [BSim.findBounds _, BSim.findMeta _, BSim.skipContent _]
theorem BSim.findMoov (n : Size) : BSim c cap e F (findMoovBuf n) (findMoovR n) := by
  unfold findMoovBuf findMoovR
  bsimLoop [BSim.findBounds _, BSim.findTrak _, BSim.findUdta _, BSim.skipContent _]
theorem BSim.findTop : BSim c cap e F findTopBuf findTopR := by
  unfold findTopBuf findTopR
  refine BSim.bind BSim.parseFtyp fun _ => BSim.bind BSim.remainingStreamLen fun _ => BSim.bind (BSim.loop (by
    intro s h; bsim [BSim.findMoov _, BSim.findLeaf _, BSim.skipContent _]) _ _) fun s => ?_
  rcases s with ⟨_ | m, _ | b⟩ <;> bsim []
theorem BSim.readTable (w n : Nat) : BSim c cap e F (readTableBuf w n) (readTableR w n) := by
  induction n with
  | zero => exact BSim.pure _
  | succ n ih => unfold readTableBuf readTableR; bsim [ih]
theorem BSim.parseTable (w : Nat) (n : Size) : BSim c cap e F (parseTableBuf w n) (parseTableR w n) := by
  unfold parseTableBuf parseTableR
  refine BSim.bind2 BSim.parseFullHead fun _ _ => BSim.ite (BSim.bind BSim.readU32 fun _ => BSim.bind (BSim.E _) fun _ =>
    BSim.ite (BSim.fail _) (BSim.bind BSim.tell fun _ => BSim.bind (BSim.ask _) fun _ => (BSim.bind (BSim.readTable _ _) fun _ => BSim.pure _))) (BSim.fail _)
theorem BSim.preparePhase (atoms : List AtomData) : BSim c cap e F (preparePhaseBuf atoms) (preparePhaseR atoms) := by
  unfold preparePhaseBuf preparePhaseR
  bsim [BSim.findTop]

end


/-! ### What is read through a `BufReader` -/

open Spec (intrCount Enough)

theorem intrCount_list (c : Sched) (cs : List Call) : ∀ t, Plays c t cs → intrCount c (t + cs.length) = intrCount c t + cs.countP (· = .intr) := by
  induction cs with
  | nil => intro t _; rfl
  | cons q cs ih =>
    intro t h
    rw [List.length_cons, show t + (cs.length + 1) = t + 1 + cs.length by omega, ih _ h.tail, intrCount_succ, List.countP_cons, h.head]
    by_cases hq : q = .intr <;> simp [hq] <;> omega

theorem countP_bads (cs : List Call) : cs.countP (· = .intr) = (bads cs).countP (· = .intr) := by
  unfold bads
  rw [List.countP_filter]
  congr 1
  funext q
  cases q <;> rfl

theorem mem_bads_err {cs : List Call} : Call.err ∈ cs ↔ Call.err ∈ bads cs := by
  unfold bads
  rw [List.mem_filter]
  exact ⟨fun h => ⟨h, rfl⟩, fun h => h.1⟩

/-- The reader that behaves as in `cs`, and without faults afterwards. -/
def replay (cs : List Call) : Sched := fun k => cs.getD k (.give 0)

theorem replay_plays (cs : List Call) : Plays (replay cs) 0 cs := by
  intro i h
  unfold replay
  rw [Nat.zero_add, List.getD_eq_getElem?_getD, List.getElem?_eq_getElem h]; rfl

theorem replay_after {cs : List Call} {k : Nat} (h : cs.length ≤ k) : replay cs k = .give 0 := by
  unfold replay
  rw [List.getD_eq_getElem?_getD, List.getElem?_eq_none h]
  rfl

theorem intrCount_replay (cs : List Call) (n : Nat) : intrCount (replay cs) n ≤ cs.countP (· = .intr) := by
  have h0 : intrCount (replay cs) cs.length = cs.countP (· = .intr) := by
    have := intrCount_list (replay cs) cs 0 (replay_plays cs)
    rw [Nat.zero_add] at this
    rw [this]
    show 0 + _ = _
    omega
  rcases Nat.le_total n cs.length with h | h
  · rw [← h0]; exact intrCount_mono _ h
  · have key : ∀ d, intrCount (replay cs) (cs.length + d) = intrCount (replay cs) cs.length := by
      intro d
      induction d with
      | zero => rfl
      | succ d ih => rw [← Nat.add_assoc, intrCount_succ, ih, replay_after (by omega)]; rfl
    have := key (n - cs.length)
    rw [Nat.add_sub_cancel' h] at this
    omega

/-- Whatever the reader inside a `BufReader` does, there is an unbuffered reader that gives the same; it is not interrupted more often. -/
theorem BSim.reader {c : Sched} {cap : Nat} {e : Env} {F : Bytes} {α} {b : B α} {r : R α} (h : BSim c cap e F b r) (hx : Fits e F) (s : BSt)
    (hs : s.Ok F) : ∃ c' t, r c' e F (s.plain 0) = ((b c cap e F s).1, (b c cap e F s).2.plain t) ∧ s.tick ≤ (b c cap e F s).2.tick ∧
      (∀ n, intrCount c' n ≤ intrCount c (b c cap e F s).2.tick) ∧
      ((∀ k, s.tick ≤ k → k < (b c cap e F s).2.tick → ∃ n, c k = .give n) → Spec.NoFaults c') ∧
      (∀ k, s.tick ≤ k → k < (b c cap e F s).2.tick → c k = .err → ∃ k' < t, c' k' = .err) ∧
      (b c cap e F s).2.tick - s.tick ≤ intrCount c (b c cap e F s).2.tick - intrCount c s.tick + Spec.busy c' t +
        (match (b c cap e F s).1 with | .ok _ => 0 | _ => 1) := by
  obtain ⟨-, cs, ds, h1, h2, h3, h4⟩ := (h hx).run s hs
  have h5 := h4 (replay cs) 0 (replay_plays cs)
  rw [Nat.zero_add] at h5
  refine ⟨replay cs, cs.length, h5, by omega, fun n => ?_, fun hg k => ?_, fun k hk1 hk2 hk => ?_, ?_⟩
  · have := intrCount_list c ds s.tick h1
    rw [h2, this, countP_bads, ← h3.bad, ← countP_bads]
    have := intrCount_replay cs n
    omega
  · have hb : bads ds = [] := by
      unfold bads
      rw [List.filter_eq_nil_iff]
      intro q hq
      obtain ⟨i, hi, rfl⟩ := List.mem_iff_getElem.mp hq
      obtain ⟨n, hn⟩ := hg (s.tick + i) (by omega) (by omega)
      rw [← h1 i hi, hn]
      simp [Call.bad]
    replace h3 := h3.bad
    rw [hb] at h3
    rcases Nat.lt_or_ge k cs.length with hk | hk
    · unfold bads at h3
      rw [List.filter_eq_nil_iff] at h3
      have := h3 cs[k] (List.getElem_mem hk)
      have hr := replay_plays cs k hk
      rw [Nat.zero_add] at hr
      rw [hr]
      rcases hq : cs[k] with n | _ | _
      · exact ⟨n, rfl⟩
      all_goals rw [hq] at this; exact absurd rfl this
    · exact ⟨0, replay_after hk⟩
  · have hi : k - s.tick < ds.length := by omega
    have hm : Call.err ∈ ds := by
      rw [← hk, show k = s.tick + (k - s.tick) by omega, h1 _ hi]
      exact List.getElem_mem hi
    rw [mem_bads_err, ← h3.bad, ← mem_bads_err] at hm
    obtain ⟨i, hi, he⟩ := List.mem_iff_getElem.mp hm
    refine ⟨i, hi, ?_⟩
    have hr := replay_plays cs i hi
    rw [Nat.zero_add] at hr
    rw [hr, he]
  · have h6 := intrCount_list c ds s.tick h1
    have h7 := intrCount_replay cs cs.length
    rw [countP_bads, h3.bad, ← countP_bads] at h7
    have h8 := h3.len
    unfold Spec.busy
    rw [h2, h6]
    omega

/-- The outcome of reading from the stream. -/
def AgreeBuf {α} (x : Out α × BSt) : Out (α × Nat) → Prop
  | .ok (a, q) => x.1 = .ok a ∧ x.2.pos = q
  | .err k => x.1 = .err k
  | .panic => x.1 = .panic
  | .fuel => x.1 = .fuel

/-- What is read through a `BufReader` is what is in the file. -/
theorem BSim.same {c : Sched} {cap : Nat} {e : Env} {F : Bytes} {α} {b : B α} {r : R α} {p : P α} (h : BSim c cap e F b r) (hx : Fits e F)
    (hr : ∀ c', RSim c' e F r p) (s : BSt) (hs : s.Ok F) (hh : s.hit = false) :
    (((b c cap e F s).2.hit = false ∧ AgreeBuf (b c cap e F s) (p e F s.pos)) ∨
      ((b c cap e F s).2.hit = true ∧ (b c cap e F s).1 = .err .io) ∨
      ((b c cap e F s).2.hit = false ∧ (b c cap e F s).1 = .fuel ∧ ¬ Enough c e F)) ∧
    ((b c cap e F s).2.hit = false → ∀ k, s.tick ≤ k → k < (b c cap e F s).2.tick → c k ≠ .err) ∧
    ((∀ k, s.tick ≤ k → k < (b c cap e F s).2.tick → ∃ n, c k = .give n) → (b c cap e F s).2.hit = false) := by
  obtain ⟨c', t, h1, -, h2, h3, h4, -⟩ := h.reader hx s hs
  obtain ⟨h5, h6⟩ := (hr c').run (s.plain 0) hh
  rw [h1] at h5 h6
  generalize b c cap e F s = x at *
  obtain ⟨o, s'⟩ := x
  refine ⟨?_, fun hh k hk1 hk2 hk => ?_, fun hg => ?_⟩
  · rcases h6 with ⟨h6, h7⟩ | h6 | ⟨h6, h7, h8⟩
    · refine .inl ⟨h6, ?_⟩
      show AgreeBuf (o, s') (p e F s.pos)
      rw [show (s.plain 0).pos = s.pos from rfl] at h7
      generalize p e F s.pos = y at h7 ⊢
      rcases y with ⟨a, q⟩ | _ | _ | _ <;> exact h7
    · exact .inr (.inl h6)
    · refine .inr (.inr ⟨h6, h7, fun ⟨m, hm1, hm2⟩ => h8 ⟨m, fun n => Nat.le_trans (h2 n) (hm1 _), hm2⟩⟩)
  · obtain ⟨k', hk', hq⟩ := h4 k hk1 hk2 hk
    exact h5.none hh k' (Nat.zero_le _) hk' hq
  · cases hh' : s'.hit
    · rfl
    · obtain ⟨k, -, -, hk⟩ := h5.some hh'
      obtain ⟨n, hn⟩ := h3 hg k
      exact absurd hn (hk n)

end Mp4
