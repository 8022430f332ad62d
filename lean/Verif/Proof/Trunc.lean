import Verif.Proof.Total
/-
Reading a truncated file: the same outcome as for the whole file, or an error.
-/
namespace Mp4

/-- On a truncated file the outcome is the same, or an I/O error. -/
def Mono {α} (m : P α) : Prop := ∀ e F n p, m e (F.take n) p = m e F p ∨ m e (F.take n) p = .err .io

theorem Mono.bind {α β} {m : P α} {f : α → P β} (h1 : Mono m) (h2 : ∀ a, Mono (f a)) : Mono (m >>= f) := by
  intro e F n p
  rw [P.bind_apply, P.bind_apply]
  rcases h1 e F n p with h | h
  · rw [h]
    cases m e F p with
    | ok x => exact h2 _ _ _ _ _
    | _ => exact .inl rfl
  · rw [h]; exact .inr rfl

theorem Mono.const {α} {m : P α} (h : ∀ e F G p, m e F p = m e G p) : Mono m := fun _ _ _ _ => .inl (h _ _ _ _)
theorem Mono.pure {α} (a : α) : Mono (pure a : P α) := .const fun _ _ _ _ => rfl
theorem Mono.fail {α} (k) : Mono (fail k : P α) := .const fun _ _ _ _ => rfl
theorem Mono.outOfFuel {α} : Mono (outOfFuel : P α) := .const fun _ _ _ _ => rfl
theorem Mono.getFuel : Mono getFuel := .const fun _ _ _ _ => rfl
theorem Mono.seekCur (n) : Mono (seekCur n) := .const fun _ _ _ _ => rfl
theorem Mono.seekStart (n) : Mono (seekStart n) := .const fun _ _ _ _ => rfl
theorem Mono.tellP : Mono tellP := .const fun _ _ _ _ => rfl
theorem Mono.E {α} (m : E α) : Mono m.p := .const fun _ _ _ _ => rfl
theorem Mono.ite {α} {c : Prop} [Decidable c] {a b : P α} (h1 : Mono a) (h2 : Mono b) : Mono (if c then a else b) := by
  split <;> assumption

theorem Mono.readExact (k) : Mono (readExact k) := by
  intro e F n p
  unfold Mp4.readExact
  by_cases h : k = 0 ∨ p + k ≤ (F.take n).length
  · left
    have h' : k = 0 ∨ p + k ≤ F.length := by
      rw [List.length_take] at h; omega
    rw [if_pos h, if_pos h']
    rcases h with rfl | h
    · simp
    · rw [List.length_take] at h
      rw [List.drop_take, List.take_take, Nat.min_eq_left (by omega)]
  · right; rw [if_neg h]

theorem Mono.readU8 : Mono readU8 := .bind (.readExact _) fun _ => .pure _
theorem Mono.readU16 : Mono readU16 := .bind (.readExact _) fun _ => .pure _
theorem Mono.readU32 : Mono readU32 := .bind (.readExact _) fun _ => .pure _
theorem Mono.readU64 : Mono readU64 := .bind (.readExact _) fun _ => .pure _
theorem Mono.readU8Vec (n) : Mono (readU8Vec n) := .bind (.E _) fun _ => .readExact _
theorem Mono.readUtf8 (n) : Mono (readUtf8 n) :=
  .bind (.readU8Vec n) fun b => by split <;> first | exact .pure _ | exact .fail _
theorem Mono.readUtf16 (n) : Mono (readUtf16 n) :=
  .bind (.E _) fun _ => .bind (.readExact _) fun b => by split <;> first | exact .pure _ | exact .fail _
theorem Mono.dataParse (t n) : Mono (Data.parse t n) := by
  unfold Data.parse
  split <;> first
    | exact .bind (.readU8Vec _) fun _ => .pure _
    | exact .bind (.readUtf8 _) fun _ => .pure _
    | exact .bind (.readUtf16 _) fun _ => .pure _
    | exact .fail _
theorem Mono.parseHead : Mono parseHead :=
  .bind .readU32 fun _ => .bind (.readExact _) fun _ => .ite (.bind .readU64 fun _ => .pure _) (.ite (.fail _) (.pure _))
theorem Mono.parseFullHead : Mono parseFullHead := .bind .readU8 fun _ => .bind (.readExact _) fun _ => .pure _
theorem Mono.findBounds (s) : Mono (findBounds s) := .bind .tellP fun _ => .bind (.E _) fun _ => .pure _
theorem Mono.seekToEnd (s) : Mono (seekToEnd s) :=
  .bind .tellP fun _ => .bind (.E _) fun _ => .bind (.E _) fun _ => .seekCur _
theorem Mono.skipContent (s) : Mono (skipContent s) := .bind (.E _) fun _ => .seekCur _

theorem Mono.walk {σ} {limit : Mp4.E Nat} {handle : σ → Head → P σ} (hh : ∀ s h, Mono (handle s h)) :
    ∀ f s parsed, Mono (walk limit handle f s parsed)
  | 0, _, _ => .outOfFuel
  | f+1, _, _ => .bind (.E _) fun _ => .ite (.bind .parseHead fun _ => .bind (hh _ _) fun _ => .bind (.E _) fun _ =>
      Mono.walk hh f _ _) (.pure _)

theorem Mono.loop {σ} {limit : Mp4.E Nat} {handle : σ → Head → P σ} (hh : ∀ s h, Mono (handle s h)) (s parsed) :
    Mono (loop limit handle s parsed) := .bind .getFuel fun _ => .walk hh _ _ _

theorem Mono.one {σ τ} {fc : Fourcc} {parse : Size → P τ} {g : σ → τ → σ} (h : ∀ s, Mono (parse s)) (s : σ) (hd : Head) :
    Mono (if hd.fourcc = fc then do let a ← parse hd.size; Pure.pure (g s a) else do Mp4.skipContent hd; Pure.pure s) :=
  .ite (.bind (h _) fun _ => .pure _) (.bind (.skipContent _) fun _ => .pure _)

theorem Mono.parseMvhd (s) : Mono (parseMvhd s) :=
  .bind (.findBounds _) fun _ => .bind .parseFullHead fun _ => .ite
    (.bind (.seekCur _) fun _ => .bind .readU32 fun _ => .bind .readU32 fun _ => .bind (.E _) fun _ =>
      .bind (.E _) fun _ => .bind (.seekToEnd _) fun _ => .pure _)
    (.ite
      (.bind (.seekCur _) fun _ => .bind .readU32 fun _ => .bind .readU64 fun _ => .bind (.E _) fun _ =>
        .bind (.E _) fun _ => .bind (.seekToEnd _) fun _ => .pure _)
      (.fail _))

theorem Mono.descHeadLoop : ∀ k h l, Mono (descHeadLoop k h l)
  | 0, _, _ => .pure _
  | k+1, _, _ => .bind .readU8 fun _ => .ite (.pure _) (Mono.descHeadLoop k _ _)
theorem Mono.parseDescHead : Mono parseDescHead := .bind .readU8 fun _ => .bind (.descHeadLoop _ _ _) fun _ => .pure _
theorem Mono.descWalk {wanted handle limit} (hh : ∀ i n, Mono (handle i n)) :
    ∀ f i parsed, Mono (descWalk wanted handle limit f i parsed)
  | 0, _, _ => .outOfFuel
  | f+1, _, _ => .ite (.bind .parseDescHead fun _ => .bind (.ite (hh _ _) (.bind (.seekCur _) fun _ => .pure _)) fun _ =>
      .bind (.E _) fun _ => .bind (.E _) fun _ => Mono.descWalk hh f _ _) (.pure _)
theorem Mono.parseDsDesc (i n) : Mono (parseDsDesc i n) :=
  .bind .readU16 fun _ => .bind (.E _) fun _ => .bind (.seekCur _) fun _ => .pure _
theorem Mono.parseDcDesc (i n) : Mono (parseDcDesc i n) :=
  .bind (.seekCur _) fun _ => .bind .readU32 fun _ => .bind .readU32 fun _ => .bind .getFuel fun _ => .descWalk .parseDsDesc _ _ _
theorem Mono.parseEsDesc (i n) : Mono (parseEsDesc i n) :=
  .bind (.seekCur _) fun _ => .bind .getFuel fun _ => .descWalk .parseDcDesc _ _ _
theorem Mono.parseEsds (i s) : Mono (parseEsds i s) :=
  .bind .parseFullHead fun _ => .ite (.fail _) (.bind .parseDescHead fun _ => .ite (.fail _)
    (.bind (.E _) fun _ => .bind (.E _) fun _ => .bind (.E _) fun _ => .parseEsDesc _ _))
theorem Mono.parseMp4a (s) : Mono (parseMp4a s) :=
  .bind (.findBounds _) fun _ => .bind (.seekCur _) fun _ => .bind .parseHead fun _ => .ite (.fail _)
    (.bind (.parseEsds _ _) fun _ => .bind (.seekToEnd _) fun _ => .pure _)
theorem Mono.parseStsd (s) : Mono (parseStsd s) :=
  .bind .parseFullHead fun _ => .ite (.fail _) (.bind (.seekCur _) fun _ =>
    .loop (Mono.one (g := fun _ a => some a) .parseMp4a) _ _)
theorem Mono.parseStbl (s) : Mono (parseStbl s) := .loop (Mono.one (g := fun _ a => some a) .parseStsd) _ _
theorem Mono.parseMinf (s) : Mono (parseMinf s) := .loop (Mono.one (g := fun _ a => some a) .parseStbl) _ _
theorem Mono.parseMdia (s) : Mono (parseMdia s) := .loop (Mono.one (g := fun _ a => some a) .parseMinf) _ _
theorem Mono.parseTrak (s) : Mono (parseTrak s) := .loop (Mono.one (g := fun _ a => some a) .parseMdia) _ _
theorem Mono.itemHandle (s h) : Mono (itemHandle s h) :=
  .ite (.bind .parseFullHead fun _ => .ite (.fail _) (.bind (.seekCur _) fun _ => .bind (.E _) fun _ =>
      .bind (.E _) fun _ => .bind (.dataParse _ _) fun _ => .pure _))
    (.ite (.bind .parseFullHead fun _ => .ite (.fail _) (.bind (.E _) fun _ =>
        .bind (.E _) fun _ => .bind (.readUtf8 _) fun _ => .pure _))
      (.ite (.bind .parseFullHead fun _ => .ite (.fail _) (.bind (.E _) fun _ =>
          .bind (.E _) fun _ => .bind (.readUtf8 _) fun _ => .pure _))
        (.bind (.skipContent _) fun _ => .pure _)))
theorem Mono.parseItem (fc n) : Mono (parseItem fc n) :=
  .bind (.loop .itemHandle _ _) fun _ => .ite (.fail _) (.pure _)
theorem Mono.parseIlst (s) : Mono (parseIlst s) :=
  .loop (fun _ _ => .ite (.bind (.skipContent _) fun _ => .pure _)
      (.bind (.E _) fun _ => .bind (.parseItem _ _) fun _ => .pure _)) _ _
theorem Mono.parseMeta (s) : Mono (parseMeta s) :=
  .bind .parseFullHead fun _ => .ite (.fail _) (.loop (Mono.one (g := fun _ a => some a) .parseIlst) _ _)
theorem Mono.parseUdta (s) : Mono (parseUdta s) := .loop (Mono.one (g := fun _ a => some a) .parseMeta) _ _
theorem Mono.parseMoov (s) : Mono (parseMoov s) :=
  .loop (fun _ _ => .ite (.bind (.parseMvhd _) fun _ => .pure _) (.ite (.bind (.parseTrak _) fun _ => .pure _)
      (.ite (.bind (.parseUdta _) fun _ => .pure _) (.bind (.skipContent _) fun _ => .pure _)))) _ _
theorem Mono.parseFtyp : Mono parseFtyp :=
  .bind .parseHead fun _ => .ite (.fail _) (.bind (.E _) fun _ => .readUtf8 _)

theorem topWalk_trunc {e F n} {len len' : Nat} (hl : len' ≤ len) : ∀ f parsed p,
    topWalk len' f parsed e (F.take n) p = topWalk len f parsed e F p ∨
    topWalk len' f parsed e (F.take n) p = .err .io ∨
    topWalk len' f parsed e (F.take n) p = .err (.atomNotFound MOVIE) := by
  intro f
  induction f with
  | zero => intro parsed p; exact .inl rfl
  | succ f ih =>
    intro parsed p
    rw [topWalk, topWalk, P.if_apply, P.if_apply]
    by_cases h : parsed ≥ len'
    · rw [if_pos h]; exact .inr (.inr rfl)
    rw [if_neg h, if_neg (by omega), P.bind_apply, P.bind_apply]
    rcases Mono.parseHead e F n p with h1 | h1
    · rw [h1]
      cases parseHead e F p with
      | ok x =>
        obtain ⟨hd, q⟩ := x
        simp only
        rw [P.if_apply, P.if_apply]
        split
        · rcases Mono.parseMoov hd.size e F n q with h2 | h2
          · exact .inl h2
          · exact .inr (.inl h2)
        · rw [P.bind_apply, P.bind_apply]
          rcases Mono.skipContent hd e F n q with h2 | h2
          · rw [h2]
            cases skipContent hd e F q with
            | ok x =>
              obtain ⟨_, q2⟩ := x
              simp only
              rw [P.bind_apply, P.bind_apply]
              have : (addU parsed hd.size.len).p e (F.take n) q2 = (addU parsed hd.size.len).p e F q2 := rfl
              rw [this]
              cases (addU parsed hd.size.len).p e F q2 with
              | ok x => exact ih _ _
              | _ => exact .inl rfl
            | _ => exact .inl rfl
          · rw [h2]; exact .inr (.inl rfl)
      | _ => exact .inl rfl
    · rw [h1]; exact .inr (.inl rfl)

theorem readExact_le {e F n p b q} (h : readExact n e F p = .ok (b, q)) (hn : n ≠ 0) : q ≤ F.length := by
  unfold readExact at h
  split at h <;> simp at h
  omega

theorem parseFtyp_le {e F p s q} (h : parseFtyp e F p = .ok (s, q)) : q ≤ F.length := by
  rw [parseFtyp] at h
  obtain ⟨hd, q1, h1, h⟩ := P.bind_inv h
  have hq1 : q1 ≤ F.length := by
    rw [parseHead] at h1
    obtain ⟨_, r1, g1, h1⟩ := P.bind_inv h1
    obtain ⟨_, r2, g2, h1⟩ := P.bind_inv h1
    have a2 := readExact_le g2 (by decide)
    dsimp only at h1
    split at h1
    · obtain ⟨_, r3, g3, h1⟩ := P.bind_inv h1
      obtain ⟨-, rfl⟩ := P.pure_inv h1
      rw [readU64] at g3
      obtain ⟨_, r4, g4, g3⟩ := P.bind_inv g3
      obtain ⟨-, rfl⟩ := P.pure_inv g3
      exact readExact_le g4 (by decide)
    · split at h1
      · simp [fail] at h1
      · obtain ⟨-, rfl⟩ := P.pure_inv h1
        exact a2
  rw [P.if_apply] at h
  split at h
  · simp [fail] at h
  obtain ⟨n, q2, h2, h⟩ := P.bind_inv h
  obtain ⟨-, rfl⟩ := E.p_inv h2
  rw [readUtf8] at h
  obtain ⟨b, q3, h3, h⟩ := P.bind_inv h
  have hq3 : q3 ≤ F.length := by
    rw [readU8Vec] at h3
    obtain ⟨_, q4, h4, h3⟩ := P.bind_inv h3
    obtain ⟨-, rfl⟩ := E.p_inv h4
    by_cases hn : n = 0
    · subst hn
      simp [readExact] at h3
      omega
    · exact readExact_le h3 hn
  cases hd : utf8Dec b with
  | some s => rw [hd] at h; obtain ⟨-, rfl⟩ := P.pure_inv h; exact hq3
  | none => rw [hd] at h; simp [fail] at h

theorem remaining_le {e F p} (h : p ≤ F.length) :
    remainingStreamLen e F p = if p ≤ e.maxPos then .ok (F.length - p, p) else .err .io := by
  rw [remainingStreamLen, P.bind_ok (show tellP e F p = .ok (p, p) from rfl),
    P.bind_ok (show seekEnd e F p = .ok (F.length, F.length) from rfl)]
  have hs : subU F.length p e = .ok (F.length - p) := by rw [subU, if_pos h]
  rw [P.bind_ok (E.p_ok hs F _), P.bind_apply]
  unfold seekStart
  by_cases hp : p ≤ e.maxPos
  · simp only [if_pos hp]; rfl
  · simp only [if_neg hp]

theorem readTag_trunc (e F n p) :
    readTag e (F.take n) p = readTag e F p ∨ readTag e (F.take n) p = .err .io ∨
    readTag e (F.take n) p = .err (.atomNotFound MOVIE) := by
  rw [readTag, readTag, readTagP, P.bind_apply, P.bind_apply]
  rcases Mono.parseFtyp e F n p with h1 | h1
  · cases h2 : parseFtyp e F p with
    | ok x =>
      obtain ⟨s, q⟩ := x
      rw [h2] at h1
      have a1 := parseFtyp_le h1
      have a2 := parseFtyp_le h2
      rw [h1]
      simp only
      rw [P.bind_apply, P.bind_apply, remaining_le a1, remaining_le a2]
      by_cases hp : q ≤ e.maxPos
      · simp only [if_pos hp]
        rw [P.bind_ok (show getFuel e _ q = .ok (e.fuel, q) from rfl),
          P.bind_ok (show getFuel e _ q = .ok (e.fuel, q) from rfl), P.bind_apply, P.bind_apply]
        have hl : (F.take n).length - q ≤ F.length - q := by rw [List.length_take]; omega
        rcases topWalk_trunc (e := e) (F := F) (n := n) hl e.fuel 0 q with h | h | h
        · rw [h]; left
          cases topWalk (F.length - q) e.fuel 0 e F q <;> rfl
        · rw [h]; exact .inr (.inl rfl)
        · rw [h]; exact .inr (.inr rfl)
      · simp only [if_neg hp]; exact .inl trivial
    | _ => rw [h2] at h1; rw [h1]; exact .inl rfl
  · rw [h1]; exact .inr (.inl rfl)

end Mp4
