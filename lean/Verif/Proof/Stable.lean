import Verif.Proof.Total
/-
How outcomes depend on the build (overflow checks) and on the bound of iterations: an outcome other than a panic with overflow
checks is the outcome without, and an outcome within a number of iterations is the outcome within any larger number.
-/
namespace Mp4

/-- `e'` is `e` without overflow checks, or with more iterations, or both. -/
structure Env.Le (e e' : Env) : Prop where
  fuel : e.fuel ≤ e'.fuel
  checked : e'.checked = true → e.checked = true
  maxPos : e'.maxPos = e.maxPos

/-- Moreover the buffer of the writer is of the same size, and reading leaves the cursor at the same positions. -/
structure Env.LeW (e e' : Env) : Prop extends e.Le e' where
  cap : e'.cap = e.cap
  rcur : e'.rcur = e.rcur

variable {e e' : Env}

/-- An outcome of arithmetic carries over. -/
structure EStable {α} (e e' : Env) (m : E α) : Prop where
  run : (m e = .panic ∧ e'.checked ≠ e.checked) ∨ m e = .fuel ∨ m e' = m e

theorem EStable.checked (h : e.Le e') {α} {c : Prop} [Decidable c] {a b : α} {m : E α}
    (hm : ∀ e, m e = if c then .ok a else if e.checked then .panic else .ok b) : EStable e e' m := by
  constructor
  rw [hm, hm]
  by_cases hc : c
  · simp [hc]
  · by_cases h1 : e'.checked = e.checked
    · rw [h1]; simp
    · have h2 : e.checked = true := by
        cases h2 : e.checked
        · cases h3 : e'.checked
          · rw [h2, h3] at h1; exact absurd rfl h1
          · exact h2.symm.trans (h.checked h3)
        · rfl
      simp [hc, h1, h2]

theorem EStable.addU (h : e.Le e') (a b) : EStable e e' (addU a b) := .checked h fun _ => rfl
theorem EStable.subU (h : e.Le e') (a b) : EStable e e' (subU a b) := .checked h fun _ => rfl
theorem EStable.mulU (h : e.Le e') (a b) : EStable e e' (mulU a b) := .checked h fun _ => rfl
theorem EStable.addU32 (h : e.Le e') (a b) : EStable e e' (addU32 a b) := .checked h fun _ => rfl
theorem EStable.addI (h : e.Le e') (a b) : EStable e e' (addI a b) := .checked h fun _ => rfl
theorem EStable.subI (h : e.Le e') (a b) : EStable e e' (subI a b) := .checked h fun _ => rfl
theorem EStable.divU (a b) : EStable e e' (divU a b) := ⟨.inr (.inr rfl)⟩
theorem EStable.allocU8 (a) : EStable e e' (allocU8 a) := ⟨.inr (.inr rfl)⟩
theorem EStable.pure {α} (a : α) : EStable e e' (pure a) := ⟨.inr (.inr rfl)⟩
theorem EStable.contentLen (h : e.Le e') (s : Size) : EStable e e' s.contentLen := .subU h _ _
theorem EStable.end_ (h : e.Le e') (s : AtomBounds) : EStable e e' s.end_ := .addU h _ _
theorem EStable.contentPos (h : e.Le e') (s : AtomBounds) : EStable e e' s.contentPos := .addU h _ _
theorem EStable.bind {α β} {m : E α} {f : α → E β} (h1 : EStable e e' m) (h2 : ∀ a, EStable e e' (f a)) :
    EStable e e' (m >>= f) := by
  constructor
  show ((m e).bind _ = _ ∧ _) ∨ (m e).bind _ = _ ∨ (m e').bind _ = (m e).bind _
  rcases h1.run with h | h | h
  · rw [h.1]; exact .inl ⟨rfl, h.2⟩
  · rw [h]; exact .inr (.inl rfl)
  · rw [h]
    cases m e with
    | ok a => exact (h2 a).run
    | _ => exact .inr (.inr rfl)
theorem EStable.ite {α} {c : Prop} [Decidable c] {a b : E α} (h1 : EStable e e' a) (h2 : EStable e e' b) :
    EStable e e' (if c then a else b) := by split <;> assumption

theorem EStable.mkPlan (h : e.Le e') (moov atoms) : EStable e e' (mkPlan moov atoms) := by
  unfold Mp4.mkPlan
  refine .bind ?_ fun _ => .bind ?_ fun _ => .bind ?_ fun _ => .bind (.addI h _ _) fun _ => .pure _
  · split
    · exact .bind (.end_ h _) fun _ => .bind (.subI h _ _) fun _ => .pure _
    · exact .pure _
  · split
    · exact .ite (.bind (.end_ h _) fun _ => .pure _) (.pure _)
    · exact .pure _
  · split
    · exact .ite (.bind (.end_ h _) fun _ => .pure _) (.pure _)
    · exact .bind (.end_ h _) fun _ => .pure _

/-- An outcome of reading carries over. -/
structure PStable {α} (e e' : Env) (m m' : P α) : Prop where
  run : ∀ F p, (m e F p = .panic ∧ e'.checked ≠ e.checked) ∨ m e F p = .fuel ∨ m' e' F p = m e F p

theorem PStable.bind {α β} {m m' : P α} {f f' : α → P β} (h1 : PStable e e' m m') (h2 : ∀ a, PStable e e' (f a) (f' a)) :
    PStable e e' (m >>= f) (m' >>= f') := by
  constructor
  intro F p
  rw [P.bind_apply, P.bind_apply]
  rcases h1.run F p with h | h | h
  · rw [h.1]; exact .inl ⟨rfl, h.2⟩
  · rw [h]; exact .inr (.inl rfl)
  · rw [h]
    cases m e F p with
    | ok x => exact (h2 _).run _ _
    | _ => exact .inr (.inr rfl)

theorem PStable.same {α} {m : P α} (h : ∀ F p, m e' F p = m e F p) : PStable e e' m m := ⟨fun F p => .inr (.inr (h F p))⟩
theorem PStable.pure {α} (a : α) : PStable e e' (pure a : P α) (pure a) := .same fun _ _ => rfl
theorem PStable.fail {α} (k) : PStable e e' (fail k : P α) (fail k) := .same fun _ _ => rfl
theorem PStable.fuel {α} {m : P α} : PStable e e' (outOfFuel : P α) m := ⟨fun _ _ => .inr (.inl rfl)⟩
theorem PStable.seekCur (h : e.Le e') (n) : PStable e e' (seekCur n) (seekCur n) := .same fun _ _ => by
  unfold Mp4.seekCur; rw [h.maxPos]
theorem PStable.seekStart (h : e.Le e') (n) : PStable e e' (seekStart n) (seekStart n) := .same fun _ _ => by
  unfold Mp4.seekStart; rw [h.maxPos]
theorem PStable.tellP : PStable e e' tellP tellP := .same fun _ _ => rfl
theorem PStable.seekEnd : PStable e e' seekEnd seekEnd := .same fun _ _ => rfl
theorem PStable.readToEnd : PStable e e' readToEnd readToEnd := .same fun _ _ => rfl
theorem PStable.E {α} {m : E α} (h : EStable e e' m) : PStable e e' m.p m.p := by
  constructor
  intro F p
  unfold Mp4.E.p
  rcases h.run with h | h | h
  · rw [h.1]; exact .inl ⟨rfl, h.2⟩
  · rw [h]; exact .inr (.inl rfl)
  · rw [h]; exact .inr (.inr rfl)
theorem PStable.ite {α} {c : Prop} [Decidable c] {a b a' b' : P α} (h1 : PStable e e' a a') (h2 : PStable e e' b b') :
    PStable e e' (if c then a else b) (if c then a' else b') := by
  split <;> assumption
theorem PStable.readExact (k) : PStable e e' (readExact k) (readExact k) := .same fun _ _ => rfl
theorem PStable.readU8 : PStable e e' readU8 readU8 := .same fun _ _ => rfl
theorem PStable.readU16 : PStable e e' readU16 readU16 := .same fun _ _ => rfl
theorem PStable.readU32 : PStable e e' readU32 readU32 := .same fun _ _ => rfl
theorem PStable.readU64 : PStable e e' readU64 readU64 := .same fun _ _ => rfl
theorem PStable.readU8Vec (n) : PStable e e' (readU8Vec n) (readU8Vec n) := .same fun _ _ => rfl
theorem PStable.readUtf8 (n) : PStable e e' (readUtf8 n) (readUtf8 n) :=
  .bind (.readU8Vec n) fun b => by split <;> first | exact .pure _ | exact .fail _
theorem PStable.readUtf16 (n) : PStable e e' (readUtf16 n) (readUtf16 n) :=
  .bind (.E (.allocU8 _)) fun _ => .bind (.readExact _) fun b => by split <;> first | exact .pure _ | exact .fail _
theorem PStable.dataParse (t n) : PStable e e' (Data.parse t n) (Data.parse t n) := by
  unfold Data.parse
  split <;> first
    | exact .bind (.readU8Vec _) fun _ => .pure _
    | exact .bind (.readUtf8 _) fun _ => .pure _
    | exact .bind (.readUtf16 _) fun _ => .pure _
    | exact .fail _
theorem PStable.parseHead : PStable e e' parseHead parseHead :=
  .bind .readU32 fun _ => .bind (.readExact _) fun _ => .ite (.bind .readU64 fun _ => .pure _) (.ite (.fail _) (.pure _))
theorem PStable.parseFullHead : PStable e e' parseFullHead parseFullHead := .same fun _ _ => rfl
theorem PStable.findBounds (h : e.Le e') (s) : PStable e e' (findBounds s) (findBounds s) :=
  .bind .tellP fun _ => .bind (.E (.subU h _ _)) fun _ => .pure _
theorem PStable.seekToEnd (h : e.Le e') (s) : PStable e e' (seekToEnd s) (seekToEnd s) :=
  .bind .tellP fun _ => .bind (.E (.end_ h _)) fun _ => .bind (.E (.subU h _ _)) fun _ => .seekCur h _
theorem PStable.skipContent (h : e.Le e') (s) : PStable e e' (skipContent s) (skipContent s) :=
  .bind (.E (.contentLen h _)) fun _ => .seekCur h _
theorem PStable.remaining (h : e.Le e') : PStable e e' remainingStreamLen remainingStreamLen :=
  .bind .tellP fun _ => .bind .seekEnd fun _ => .bind (.E (.subU h _ _)) fun _ => .bind (.seekStart h _) fun _ => .pure _

theorem PStable.walk (h : e.Le e') {σ} {limit : Mp4.E Nat} {handle : σ → Head → P σ} (hl : EStable e e' limit)
    (hh : ∀ s hd, PStable e e' (handle s hd) (handle s hd)) :
    ∀ f f', f ≤ f' → ∀ s parsed, PStable e e' (walk limit handle f s parsed) (walk limit handle f' s parsed)
  | 0, _, _, _, _ => .fuel
  | f+1, 0, hf, _, _ => by omega
  | f+1, f'+1, hf, _, _ => .bind (.E hl) fun _ => .ite (.bind .parseHead fun _ => .bind (hh _ _) fun _ =>
      .bind (.E (.addU h _ _)) fun _ => PStable.walk h hl hh f f' (by omega) _ _) (.pure _)

theorem PStable.loop (h : e.Le e') {σ} {limit : Mp4.E Nat} {handle : σ → Head → P σ} (hl : EStable e e' limit)
    (hh : ∀ s hd, PStable e e' (handle s hd) (handle s hd)) (s parsed) :
    PStable e e' (loop limit handle s parsed) (loop limit handle s parsed) :=
  ⟨fun F p => (PStable.walk h hl hh _ _ h.fuel s parsed).run F p⟩

theorem PStable.one (h : e.Le e') {σ τ} {fc : Fourcc} {parse : Size → P τ} {g : σ → τ → σ}
    (hp : ∀ s, PStable e e' (parse s) (parse s)) (s : σ) (hd : Head) :
    PStable e e' (if hd.fourcc = fc then do let a ← parse hd.size; Pure.pure (g s a) else do Mp4.skipContent hd; Pure.pure s)
      (if hd.fourcc = fc then do let a ← parse hd.size; Pure.pure (g s a) else do Mp4.skipContent hd; Pure.pure s) :=
  .ite (.bind (hp _) fun _ => .pure _) (.bind (.skipContent h _) fun _ => .pure _)

theorem PStable.parseMvhd (h : e.Le e') (s) : PStable e e' (parseMvhd s) (parseMvhd s) :=
  .bind (.findBounds h _) fun _ => .bind .parseFullHead fun _ => .ite
    (.bind (.seekCur h _) fun _ => .bind .readU32 fun _ => .bind .readU32 fun _ => .bind (.E (.mulU h _ _)) fun _ =>
      .bind (.E (.divU _ _)) fun _ => .bind (.seekToEnd h _) fun _ => .pure _)
    (.ite
      (.bind (.seekCur h _) fun _ => .bind .readU32 fun _ => .bind .readU64 fun _ => .bind (.E (.mulU h _ _)) fun _ =>
        .bind (.E (.divU _ _)) fun _ => .bind (.seekToEnd h _) fun _ => .pure _)
      (.fail _))

theorem PStable.descHeadLoop : ∀ k hl l, PStable e e' (descHeadLoop k hl l) (descHeadLoop k hl l)
  | 0, _, _ => .pure _
  | k+1, _, _ => .bind .readU8 fun _ => .ite (.pure _) (PStable.descHeadLoop k _ _)
theorem PStable.parseDescHead : PStable e e' parseDescHead parseDescHead :=
  .bind .readU8 fun _ => .bind (.descHeadLoop _ _ _) fun _ => .pure _
theorem PStable.descWalk (h : e.Le e') {wanted handle limit} (hh : ∀ i n, PStable e e' (handle i n) (handle i n)) :
    ∀ f f', f ≤ f' → ∀ i parsed, PStable e e' (descWalk wanted handle limit f i parsed) (descWalk wanted handle limit f' i parsed)
  | 0, _, _, _, _ => .fuel
  | f+1, 0, hf, _, _ => by omega
  | f+1, f'+1, hf, _, _ => .ite (.bind .parseDescHead fun _ => .bind (.ite (hh _ _) (.bind (.seekCur h _) fun _ => .pure _)) fun _ =>
      .bind (.E (.addU h _ _)) fun _ => .bind (.E (.addU h _ _)) fun _ => PStable.descWalk h hh f f' (by omega) _ _) (.pure _)
theorem PStable.descLoop (h : e.Le e') {wanted handle limit i parsed} (hh : ∀ i n, PStable e e' (handle i n) (handle i n)) :
    PStable e e' (getFuel >>= fun f => Mp4.descWalk wanted handle limit f i parsed)
      (getFuel >>= fun f => Mp4.descWalk wanted handle limit f i parsed) :=
  ⟨fun F p => (PStable.descWalk h hh _ _ h.fuel i parsed).run F p⟩
theorem PStable.parseDsDesc (h : e.Le e') (i n) : PStable e e' (parseDsDesc i n) (parseDsDesc i n) :=
  .bind .readU16 fun _ => .bind (.E (.subU h _ _)) fun _ => .bind (.seekCur h _) fun _ => .pure _
theorem PStable.parseDcDesc (h : e.Le e') (i n) : PStable e e' (parseDcDesc i n) (parseDcDesc i n) :=
  .bind (.seekCur h _) fun _ => .bind .readU32 fun _ => .bind .readU32 fun _ => .descLoop h (.parseDsDesc h)
theorem PStable.parseEsDesc (h : e.Le e') (i n) : PStable e e' (parseEsDesc i n) (parseEsDesc i n) :=
  .bind (.seekCur h _) fun _ => .descLoop h (.parseDcDesc h)
theorem PStable.parseEsds (h : e.Le e') (i s) : PStable e e' (parseEsds i s) (parseEsds i s) :=
  .bind .parseFullHead fun _ => .ite (.fail _) (.bind .parseDescHead fun _ => .ite (.fail _)
    (.bind (.E (.contentLen h _)) fun _ => .bind (.E (.subU h _ _)) fun _ => .bind (.E (.subU h _ _)) fun _ => .parseEsDesc h _ _))
theorem PStable.parseMp4a (h : e.Le e') (s) : PStable e e' (parseMp4a s) (parseMp4a s) :=
  .bind (.findBounds h _) fun _ => .bind (.seekCur h _) fun _ => .bind .parseHead fun _ => .ite (.fail _)
    (.bind (.parseEsds h _ _) fun _ => .bind (.seekToEnd h _) fun _ => .pure _)
theorem PStable.parseStsd (h : e.Le e') (s) : PStable e e' (parseStsd s) (parseStsd s) :=
  .bind .parseFullHead fun _ => .ite (.fail _) (.bind (.seekCur h _) fun _ =>
    .loop h (.contentLen h _) (PStable.one h (g := fun _ a => some a) (.parseMp4a h)) _ _)
theorem PStable.parseStbl (h : e.Le e') (s) : PStable e e' (parseStbl s) (parseStbl s) :=
  .loop h (.contentLen h _) (PStable.one h (g := fun _ a => some a) (.parseStsd h)) _ _
theorem PStable.parseMinf (h : e.Le e') (s) : PStable e e' (parseMinf s) (parseMinf s) :=
  .loop h (.contentLen h _) (PStable.one h (g := fun _ a => some a) (.parseStbl h)) _ _
theorem PStable.parseMdia (h : e.Le e') (s) : PStable e e' (parseMdia s) (parseMdia s) :=
  .loop h (.contentLen h _) (PStable.one h (g := fun _ a => some a) (.parseMinf h)) _ _
theorem PStable.parseTrak (h : e.Le e') (s) : PStable e e' (parseTrak s) (parseTrak s) :=
  .loop h (.contentLen h _) (PStable.one h (g := fun _ a => some a) (.parseMdia h)) _ _
theorem PStable.itemHandle (h : e.Le e') (s hd) : PStable e e' (itemHandle s hd) (itemHandle s hd) :=
  .ite (.bind .parseFullHead fun _ => .ite (.fail _) (.bind (.seekCur h _) fun _ => .bind (.E (.contentLen h _)) fun _ =>
      .bind (.E (.subU h _ _)) fun _ => .bind (.dataParse _ _) fun _ => .pure _))
    (.ite (.bind .parseFullHead fun _ => .ite (.fail _) (.bind (.E (.contentLen h _)) fun _ =>
        .bind (.E (.subU h _ _)) fun _ => .bind (.readUtf8 _) fun _ => .pure _))
      (.ite (.bind .parseFullHead fun _ => .ite (.fail _) (.bind (.E (.contentLen h _)) fun _ =>
          .bind (.E (.subU h _ _)) fun _ => .bind (.readUtf8 _) fun _ => .pure _))
        (.bind (.skipContent h _) fun _ => .pure _)))
theorem PStable.parseItem (h : e.Le e') (fc n) : PStable e e' (parseItem fc n) (parseItem fc n) :=
  .bind (.loop h (.pure _) (.itemHandle h) _ _) fun _ => .ite (.fail _) (.pure _)
theorem PStable.parseIlst (h : e.Le e') (s) : PStable e e' (parseIlst s) (parseIlst s) :=
  .loop h (.contentLen h _) (fun _ _ => .ite (.bind (.skipContent h _) fun _ => .pure _)
      (.bind (.E (.contentLen h _)) fun _ => .bind (.parseItem h _ _) fun _ => .pure _)) _ _
theorem PStable.parseMeta (h : e.Le e') (s) : PStable e e' (parseMeta s) (parseMeta s) :=
  .bind .parseFullHead fun _ => .ite (.fail _)
    (.loop h (.contentLen h _) (PStable.one h (g := fun _ a => some a) (.parseIlst h)) _ _)
theorem PStable.parseUdta (h : e.Le e') (s) : PStable e e' (parseUdta s) (parseUdta s) :=
  .loop h (.contentLen h _) (PStable.one h (g := fun _ a => some a) (.parseMeta h)) _ _
theorem PStable.parseMoov (h : e.Le e') (s) : PStable e e' (parseMoov s) (parseMoov s) :=
  .loop h (.contentLen h _) (fun _ _ => .ite (.bind (.parseMvhd h _) fun _ => .pure _) (.ite (.bind (.parseTrak h _) fun _ => .pure _)
      (.ite (.bind (.parseUdta h _) fun _ => .pure _) (.bind (.skipContent h _) fun _ => .pure _)))) _ _
theorem PStable.parseFtyp (h : e.Le e') : PStable e e' parseFtyp parseFtyp :=
  .bind .parseHead fun _ => .ite (.fail _) (.bind (.E (.contentLen h _)) fun _ => .readUtf8 _)
theorem PStable.topWalk (h : e.Le e') (len : Nat) :
    ∀ f f', f ≤ f' → ∀ parsed, PStable e e' (topWalk len f parsed) (topWalk len f' parsed)
  | 0, _, _, _ => .fuel
  | f+1, 0, hf, _ => by omega
  | f+1, f'+1, hf, _ => .ite (.fail _) (.bind .parseHead fun _ => .ite (.parseMoov h _) (.bind (.skipContent h _) fun _ =>
      .bind (.E (.addU h _ _)) fun _ => PStable.topWalk h len f f' (by omega) _))
theorem PStable.topLoop (h : e.Le e') (len : Nat) (s : Str) :
    PStable e e' (getFuel >>= fun f => Mp4.topWalk len f 0 >>= fun moov => Pure.pure (mkTag s moov))
      (getFuel >>= fun f => Mp4.topWalk len f 0 >>= fun moov => Pure.pure (mkTag s moov)) :=
  ⟨fun F p => (PStable.bind (PStable.topWalk h len _ _ h.fuel 0) fun moov => PStable.pure (mkTag s moov)).run F p⟩

theorem PStable.readTagP (h : e.Le e') : PStable e e' readTagP readTagP :=
  .bind (.parseFtyp h) fun _ => .bind (.remaining h) fun _ => .topLoop h _ _

theorem readTag_stable (h : e.Le e') (F p) : (readTag e F p = .panic ∧ e'.checked ≠ e.checked) ∨ readTag e F p = .fuel ∨ readTag e' F p = readTag e F p := by
  unfold readTag
  rcases (PStable.readTagP h).run F p with h | h | h
  · rw [h.1]; exact .inl ⟨rfl, h.2⟩
  · rw [h]; exact .inr (.inl rfl)
  · rw [h]; exact .inr (.inr rfl)

/-! ### The search -/

theorem PStable.findLeaf (h : e.Le e') (s) : PStable e e' (findLeaf s) (findLeaf s) :=
  .bind (.findBounds h _) fun _ => .bind (.seekToEnd h _) fun _ => .pure _
theorem PStable.findStbl (h : e.Le e') (s) : PStable e e' (findStbl s) (findStbl s) :=
  .bind (.findBounds h _) fun _ => .loop h (.contentLen h _) (fun _ _ => .ite (.bind (.findLeaf h _) fun _ => .pure _)
    (.ite (.bind (.findLeaf h _) fun _ => .pure _) (.bind (.skipContent h _) fun _ => .pure _))) _ _
theorem PStable.findMinf (h : e.Le e') (s) : PStable e e' (findMinf s) (findMinf s) :=
  .bind (.findBounds h _) fun _ => .loop h (.contentLen h _) (PStable.one h (g := fun _ a => some a) (.findStbl h)) _ _
theorem PStable.findMdia (h : e.Le e') (s) : PStable e e' (findMdia s) (findMdia s) :=
  .bind (.findBounds h _) fun _ => .loop h (.contentLen h _) (PStable.one h (g := fun _ a => some a) (.findMinf h)) _ _
theorem PStable.findTrak (h : e.Le e') (s) : PStable e e' (findTrak s) (findTrak s) :=
  .bind (.findBounds h _) fun _ => .loop h (.contentLen h _) (PStable.one h (g := fun _ a => some a) (.findMdia h)) _ _
theorem PStable.findMeta (h : e.Le e') (s) : PStable e e' (findMeta s) (findMeta s) :=
  .bind (.findBounds h _) fun _ => .bind .parseFullHead fun _ => .ite (.fail _)
    (.loop h (.contentLen h _) (fun _ _ => .ite (.bind (.findLeaf h _) fun _ => .pure _)
      (.ite (.bind (.findLeaf h _) fun _ => .pure _) (.bind (.skipContent h _) fun _ => .pure _))) _ _)
theorem PStable.findUdta (h : e.Le e') (s) : PStable e e' (findUdta s) (findUdta s) :=
  .bind (.findBounds h _) fun _ => .loop h (.contentLen h _) (fun _ _ => .ite (.bind (.findMeta h _) fun _ => .pure _)
    (.bind (.skipContent h _) fun _ => .pure _)) _ _
theorem PStable.findMoov (h : e.Le e') (s) : PStable e e' (findMoov s) (findMoov s) :=
  .bind (.findBounds h _) fun _ => .loop h (.contentLen h _) (fun _ _ => .ite (.bind (.findTrak h _) fun _ => .pure _)
    (.ite (.bind (.findUdta h _) fun _ => .pure _) (.bind (.skipContent h _) fun _ => .pure _))) _ _
theorem PStable.findTop (h : e.Le e') : PStable e e' findTop findTop :=
  .bind (.parseFtyp h) fun _ => .bind (.remaining h) fun _ => .bind
    (.loop h (.pure _) (fun _ _ => .ite (.bind (.findMoov h _) fun _ => .pure _)
      (.ite (.bind (.findLeaf h _) fun _ => .pure _) (.bind (.skipContent h _) fun _ => .pure _))) _ _)
    fun s => by
      dsimp only
      cases s.moov with
      | some m => exact .pure _
      | none => exact .fail _
theorem PStable.preparePhase (h : e.Le e') (atoms) : PStable e e' (preparePhase atoms) (preparePhase atoms) :=
  .bind (.findTop h) fun _ => .bind (.E (.mkPlan h _ _)) fun _ => .bind .seekEnd fun _ => .bind (.E (.subU h _ _)) fun _ =>
    .bind (.E (.allocU8 _)) fun _ => .bind (.seekStart h _) fun _ => .bind .readToEnd fun _ => .pure _
theorem PStable.readTable (w) : ∀ n, PStable e e' (readTable w n) (readTable w n)
  | 0 => .pure _
  | n+1 => .bind (.readExact _) fun _ => .bind (PStable.readTable w n) fun _ => .pure _
theorem PStable.parseTable (h : e.Le e') (w s) : PStable e e' (parseTable w s) (parseTable w s) :=
  .bind .parseFullHead fun _ => .ite (.bind .readU32 fun _ => .bind (.E (.contentLen h _)) fun _ => .ite (.fail _)
    (.bind .tellP fun _ => .bind (.readTable _ _) fun _ => .pure _)) (.fail _)

/-! ### Writing -/

/-- An outcome of a serialisation carries over. -/
structure WrStable {α} (e e' : Env) (m : Wr α) : Prop where
  run : ((m e).2 = .panic ∧ e'.checked ≠ e.checked) ∨ (m e).2 = .fuel ∨ m e' = m e

theorem WrStable.E {α} {m : E α} (h : EStable e e' m) : WrStable e e' m.wr := by
  constructor
  unfold Mp4.E.wr
  rcases h.run with h | h | h
  · exact .inl h
  · exact .inr (.inl h)
  · exact .inr (.inr (by rw [h]))
theorem WrStable.bind {α β} {m : Wr α} {f : α → Wr β} (h1 : WrStable e e' m) (h2 : ∀ a, WrStable e e' (f a)) :
    WrStable e e' (m >>= f) := by
  constructor
  show ((Wr.bind m f e).2 = _ ∧ _) ∨ (Wr.bind m f e).2 = _ ∨ Wr.bind m f e' = Wr.bind m f e
  unfold Wr.bind
  rcases h1.run with h | h | h
  · left
    obtain ⟨h, hd⟩ := h
    refine ⟨?_, hd⟩
    generalize m e = r at h
    obtain ⟨c, o⟩ := r
    dsimp only at h; subst h; rfl
  · right; left
    generalize m e = r at h
    obtain ⟨c, o⟩ := r
    dsimp only at h; subst h; rfl
  · rw [h]
    generalize m e = r
    obtain ⟨c, o⟩ := r
    cases o with
    | ok a =>
      dsimp only
      rcases (h2 a).run with h | h | h
      · exact .inl h
      · exact .inr (.inl h)
      · rw [h]; exact .inr (.inr rfl)
    | _ => exact .inr (.inr rfl)
theorem WrStable.emit (b) : WrStable e e' (emit b) := ⟨.inr (.inr rfl)⟩
theorem WrStable.pure : WrStable e e' (pure ()) := ⟨.inr (.inr rfl)⟩
theorem WrStable.wrAll {α} {f : α → Wr Unit} (h : ∀ a, WrStable e e' (f a)) : ∀ l, WrStable e e' (wrAll f l)
  | [] => .pure
  | x :: l => .bind (h x) fun _ => WrStable.wrAll h l
theorem WrStable.wrOpt {α} {f : α → Wr Unit} (h : ∀ a, WrStable e e' (f a)) (x) : WrStable e e' (wrOpt f x) := by
  cases x with
  | none => exact .pure
  | some a => exact h a
theorem WrStable.writeHead (h) : WrStable e e' (writeHead h) := by
  unfold Mp4.writeHead
  split
  · exact .bind (.emit _) fun _ => .bind (.emit _) fun _ => .emit _
  · exact .bind (.emit _) fun _ => .emit _
theorem WrStable.writeRaw (d : Data) : WrStable e e' d.writeRaw := by
  cases d <;> first | exact .emit _ | exact .wrAll (fun _ => .emit _) _
theorem WrStable.writeDataAtom (h : e.Le e') (d) : WrStable e e' (writeDataAtom d) :=
  .bind (.E (.addU32 h _ _)) fun _ => .bind (.emit _) fun _ => .bind (.emit _) fun _ =>
    .bind (.emit _) fun _ => .bind (.emit _) fun _ => .writeRaw d
theorem WrStable.writeStrAtom (h : e.Le e') (f s) : WrStable e e' (writeStrAtom f s) :=
  .bind (.E (.addU32 h _ _)) fun _ => .bind (.emit _) fun _ => .bind (.emit _) fun _ => .bind (.emit _) fun _ => .emit _
theorem WrStable.atom (h : e.Le e') (a : AtomData) : WrStable e e' a.write := by
  refine .bind (.emit _) fun _ => ?_
  cases a.ident with
  | fourcc f => exact .bind (.emit _) fun _ => .wrAll (.writeDataAtom h) _
  | freeform m n =>
    exact .bind (.emit _) fun _ => .bind (.writeStrAtom h _ _) fun _ => .bind (.writeStrAtom h _ _) fun _ =>
      .wrAll (.writeDataAtom h) _
theorem WrStable.writeIlst (h : e.Le e') (a) : WrStable e e' (writeIlst a) := .bind (.writeHead _) fun _ => .wrAll (.atom h) _
theorem WrStable.writeHdlr (a) : WrStable e e' (writeHdlr a) := .bind (.writeHead _) fun _ => .emit _
theorem WrStable.writeMeta (h : e.Le e') (a) : WrStable e e' (writeMeta a) :=
  .bind (.writeHead _) fun _ => .bind (WrStable.bind (.emit _) fun _ => .emit _) fun _ =>
    .bind (.wrOpt .writeHdlr _) fun _ => .wrOpt (.writeIlst h) _
theorem WrStable.writeUdta (h : e.Le e') (a) : WrStable e e' (writeUdta a) := .bind (.writeHead _) fun _ => .wrOpt (.writeMeta h) _
theorem WrStable.newAtoms (h : e.Le e') (p atoms) : WrStable e e' (newAtomsWr p atoms) := by
  unfold newAtomsWr
  split
  · exact .writeUdta h _
  · exact .writeMeta h _
  · exact .bind (.wrOpt .writeHdlr _) fun _ => .writeIlst h _
theorem WrStable.dump (h : e.Le e') (atoms) : WrStable e e' (dumpWr atoms) :=
  .bind (.bind (.writeHead _) fun _ => .emit _) fun _ => .bind (.writeHead _) fun _ => .wrOpt (.writeUdta h) _

theorem dumpTag_stable (h : e.Le e') (t) : ((dumpTag e t).2 = .panic ∧ e'.checked ≠ e.checked) ∨ (dumpTag e t).2 = .fuel ∨ dumpTag e' t = dumpTag e t := by
  unfold dumpTag
  have h := (WrStable.dump h t.atoms).run
  generalize dumpWr t.atoms e = a, dumpWr t.atoms e' = b at h ⊢
  rcases h with h | h | h
  · exact .inl h
  · exact .inr (.inl h)
  · subst h; exact .inr (.inr rfl)

/-- An outcome of writing to the file carries over, with the resulting state. -/
structure WStable {α} (e e' : Env) (m : W α) : Prop where
  run : ∀ s, ((m e s).1 = .panic ∧ e'.checked ≠ e.checked) ∨ (m e s).1 = .fuel ∨ m e' s = m e s

theorem WStable.bind {α β} {m : W α} {f : α → W β} (h1 : WStable e e' m) (h2 : ∀ a, WStable e e' (f a)) :
    WStable e e' (m >>= f) := by
  constructor
  intro s
  rw [W.bind_apply, W.bind_apply]
  rcases h1.run s with h | h | h
  · left
    obtain ⟨h, hd⟩ := h
    refine ⟨?_, hd⟩
    generalize m e s = r at h
    obtain ⟨o, c⟩ := r
    dsimp only at h; subst h; rfl
  · right; left
    generalize m e s = r at h
    obtain ⟨o, c⟩ := r
    dsimp only at h; subst h; rfl
  · rw [h]
    generalize m e s = r
    obtain ⟨o, c⟩ := r
    cases o with
    | ok a => exact (h2 a).run _
    | _ => exact .inr (.inr rfl)
theorem WStable.same {α} {m : W α} (h : ∀ s, m e' s = m e s) : WStable e e' m := ⟨fun s => .inr (.inr (h s))⟩
theorem WStable.pure {α} (a : α) : WStable e e' (pure a : W α) := .same fun _ => rfl
theorem WStable.E {α} {m : E α} (h : EStable e e' m) : WStable e e' m.w := by
  constructor
  intro s
  unfold Mp4.E.w
  rcases h.run with h | h | h
  · exact .inl h
  · exact .inr (.inl h)
  · exact .inr (.inr (by rw [h]))
theorem WStable.ite {α} {c : Prop} [Decidable c] {a b : W α} (h1 : WStable e e' a) (h2 : WStable e e' b) :
    WStable e e' (if c then a else b) := by split <;> assumption
theorem WStable.wWriteAll (h : e.LeW e') (b) : WStable e e' (wWriteAll b) := .same fun _ => by unfold Mp4.wWriteAll; rw [h.cap]
theorem WStable.wFlush : WStable e e' wFlush := .same fun _ => rfl
theorem WStable.wSeekStart (h : e.LeW e') (n) : WStable e e' (wSeekStart n) := .same fun _ => by unfold Mp4.wSeekStart; rw [h.maxPos]
theorem WStable.wSeekCur (h : e.LeW e') (n) : WStable e e' (wSeekCur n) := .same fun _ => by unfold Mp4.wSeekCur; rw [h.maxPos]
theorem WStable.wSetLen (h : e.LeW e') (n) : WStable e e' (wSetLen n) := .same fun _ => by unfold Mp4.wSetLen; rw [h.maxPos]
theorem WStable.wAll {α} {f : α → W Unit} (h : ∀ a, WStable e e' (f a)) : ∀ l, WStable e e' (wAll f l)
  | [] => .pure _
  | x :: l => .bind (h x) fun _ => WStable.wAll h l
theorem WStable.wRead {α} (h : e.LeW e') {m : P α} (n) (hm : PStable e e' m m) : WStable e e' (wRead n m) := by
  constructor
  intro s
  have := (PStable.bind (.seekStart h.toLe n) (fun _ => hm)).run s.file 0
  unfold Mp4.wRead
  rw [h.rcur]
  rcases this with h | h | h
  · left; rw [h.1]; exact ⟨rfl, h.2⟩
  · right; left; rw [h]
  · right; right; rw [h]
theorem WStable.wOpt {α} {f : α → W Unit} (h : ∀ a, WStable e e' (f a)) (x) : WStable e e' (wOpt f x) := by
  cases x with
  | none => exact .pure _
  | some a => exact h a
theorem WStable.patchTable (h : e.LeW e') (w d a) : WStable e e' (patchTable w d a) :=
  .bind (.E (.contentPos h.toLe _)) fun _ => .bind (.wRead h _ (.parseTable h.toLe _ _)) fun _ => .bind (.wSeekStart h _) fun _ =>
    .bind (.wAll (fun _ => .bind (.E (.addI h.toLe _ _)) fun _ => .wWriteAll h _) _) fun _ => .wFlush
theorem WStable.patchHead (h : e.LeW e') (d a) : WStable e e' (patchHead d a) :=
  .bind (.E (.addI h.toLe _ _)) fun _ => .bind (.wSeekStart h _) fun _ => .ite
    (.bind (.wWriteAll h _) fun _ => .bind (.wSeekCur h _) fun _ => .wWriteAll h _) (.wWriteAll h _)
theorem WStable.wEmit (h : e.LeW e') {m} (hm : WrStable e e' m) : WStable e e' (wEmit m) := by
  constructor
  intro s
  unfold Mp4.wEmit
  have hn : ∀ l, (Mp4.wAll Mp4.wWriteAll l e s).1 = .ok () := by
    intro l
    induction l generalizing s with
    | nil => rfl
    | cons b l ih =>
      have hw : ∃ s', Mp4.wWriteAll b e s = (.ok (), s') := by
        unfold Mp4.wWriteAll
        split
        · exact ⟨_, rfl⟩
        · dsimp only; split <;> exact ⟨_, rfl⟩
      obtain ⟨s', hs'⟩ := hw
      show ((Mp4.wWriteAll b >>= fun _ => Mp4.wAll Mp4.wWriteAll l) e s).1 = _
      rw [W.bind_apply, hs']
      exact ih s'
  have hs : ∀ l, Mp4.wAll Mp4.wWriteAll l e' s = Mp4.wAll Mp4.wWriteAll l e s := by
    intro l
    rcases (WStable.wAll (WStable.wWriteAll h) l).run s with h' | h' | h'
    · rw [hn l] at h'; cases h'.1
    · rw [hn l] at h'; cases h'
    · exact h'
  dsimp only
  have h0 := hn (m e).1
  rcases hm.run with h' | h' | h'
  · left
    refine ⟨?_, h'.2⟩
    replace h' := h'.1
    generalize hr : Mp4.wAll Mp4.wWriteAll (m e).1 e s = r at h0
    obtain ⟨o, c⟩ := r
    dsimp only at h0; subst h0
    exact h'
  · right; left
    generalize hr : Mp4.wAll Mp4.wWriteAll (m e).1 e s = r at h0
    obtain ⟨o, c⟩ := r
    dsimp only at h0; subst h0
    exact h'
  · right; right
    rw [h', hs]

theorem WStable.writePhase (h : e.LeW e') (mp mo p ol mv at') : WStable e e' (writePhase mp mo p ol mv at') := by
  have h2 : WStable e e' (do
      Mp4.wAll (Mp4.patchHead p.lenDiff) p.updateAtoms.reverse
      let n ← (addI (asI64 ol) p.lenDiff).w
      Mp4.wSetLen (asU64 n)
      Mp4.wSeekStart p.newAtomsStart
      Mp4.wEmit (newAtomsWr p at')
      let m ← (addI (asI64 p.movedDataStart) p.lenDiff).w
      Mp4.wSeekStart (asU64 m)
      Mp4.wWriteAll mv
      Mp4.wFlush) :=
    .bind (.wAll (.patchHead h _) _) fun _ => .bind (.E (.addI h.toLe _ _)) fun _ => .bind (.wSetLen h _) fun _ =>
      .bind (.wSeekStart h _) fun _ => .bind (.wEmit h (.newAtoms h.toLe _ _)) fun _ => .bind (.E (.addI h.toLe _ _)) fun _ =>
      .bind (.wSeekStart h _) fun _ => .bind (.wWriteAll h _) fun _ => .wFlush
  unfold Mp4.writePhase
  split
  · exact .bind (.wAll (fun _ => .bind (.wOpt (.patchTable h _ _) _) fun _ => .wOpt (.patchTable h _ _) _) _) fun _ => h2
  · exact h2

theorem writeTagTo_stable (h : e.LeW e') (F p atoms) :
    ((writeTagTo e F p atoms).1 = .panic ∧ e'.checked ≠ e.checked) ∨ (writeTagTo e F p atoms).1 = .fuel ∨ writeTagTo e' F p atoms = writeTagTo e F p atoms := by
  unfold writeTagTo
  rw [h.rcur]
  rcases (PStable.preparePhase h.toLe atoms).run F p with h' | h' | h'
  · rw [h'.1]; exact .inl ⟨rfl, h'.2⟩
  · rw [h']; exact .inr (.inl rfl)
  · rw [h']
    cases preparePhase atoms e F p with
    | ok x =>
      obtain ⟨⟨a, b, c, d, f⟩, x⟩ := x
      dsimp only
      rcases (WStable.writePhase h a b c d f atoms).run { file := F, cur := e.rcur 0 } with h' | h' | h'
      · exact .inl h'
      · exact .inr (.inl h')
      · rw [h']; exact .inr (.inr rfl)
    | _ => exact .inr (.inr rfl)

end Mp4
