import Verif.Proof.Local
import Verif.Proof.Put
import Verif.Proof.PutPut
/-
With overflow checks, what was read from the movie header and the tracks of a movie atom is read again from a movie atom that has
the same movie header and the same sample descriptions.
-/
namespace Mp4
open Spec

/-- The value `t` is read from the atom `b` wherever it is found. -/
def Reads (e : Env) {τ : Type} (parse : Size → P τ) (b : Box) (t : τ) : Prop := ∀ G q, Fit e G → 8 ≤ q → At G q b.ser →
  parse b.size e G (q + b.headLen) = .ok (t, q + b.ser.length)

/-- A step of a loop over the kids of a container in which the last atom of one kind counts. -/
def OneStep {α τ : Type} (V : α → τ → Prop) (s : Option τ) (k : Kid α) (s' : Option τ) : Prop :=
  match k with
  | .node _ a => ∃ v, V a v ∧ s' = some v
  | .raw _ => s' = s

/-- The same for a sample table. -/
def StblStep (e : Env) (s : Option (Option Mp4a)) (b : Box) (s' : Option (Option Mp4a)) : Prop :=
  if b.fc = cc 's' 't' 's' 'd' then ∃ v, Reads e parseStsd b v ∧ s' = some v else s' = s

/-- What is read from a sample table, media information, media, track; it only depends on the sample descriptions. -/
def StblV (e : Env) (s : Stbl) (v : Option (Option Mp4a)) : Prop := Steps (StblStep e) none s v
def MinfV (e : Env) (s : Minf) (v : Option (Option (Option Mp4a))) : Prop := Steps (OneStep (StblV e)) none s v
def MdiaV (e : Env) (s : Spec.Mdia) (v : Option (Option (Option (Option Mp4a)))) : Prop := Steps (OneStep (MinfV e)) none s v
def TrakV (e : Env) (s : Spec.Trak) (v : Mp4.Trak) : Prop := Steps (OneStep (MdiaV e)) none s v

/-! ### Steps -/

theorem Steps_append {σ κ : Type} {S : σ → κ → σ → Prop} {ks js : List κ} : ∀ {s s' : σ},
    Steps S s (ks ++ js) s' ↔ ∃ m, Steps S s ks m ∧ Steps S m js s' := by
  induction ks with
  | nil => intro s s'; exact ⟨fun h => ⟨s, rfl, h⟩, fun ⟨m, h1, h2⟩ => by cases h1; exact h2⟩
  | cons k ks ih =>
    intro s s'
    refine ⟨fun ⟨m, h1, h2⟩ => ?_, fun ⟨x, ⟨m, h1, h2⟩, h3⟩ => ⟨m, h1, ih.mpr ⟨x, h2, h3⟩⟩⟩
    obtain ⟨x, h3, h4⟩ := ih.mp h2
    exact ⟨x, ⟨m, h1, h3⟩, h4⟩

theorem Steps_map {σ κ κ' : Type} {S : σ → κ → σ → Prop} {S' : σ → κ' → σ → Prop} {f : κ → κ'} (h : ∀ s k s', S s k s' → S' s (f k) s')
    {ks : List κ} : ∀ {s s' : σ}, Steps S s ks s' → Steps S' s (ks.map f) s' := by
  induction ks with
  | nil => intro s s' h; exact h
  | cons k ks ih => rintro s s' ⟨m, h1, h2⟩; exact ⟨m, h _ _ _ h1, ih h2⟩

theorem Steps_mapLast {σ κ : Type} {S : σ → κ → σ → Prop} {f : κ → Option κ} (h : ∀ k k', f k = some k' → ∀ s s', S s k s' → S s k' s')
    {ks : List κ} {s s' : σ} (hs : Steps S s ks s') : Steps S s (mapLast f ks) s' := by
  rcases last_split (fun k => f k ≠ none) ks with hn | ⟨A, k, B, rfl, hk, hB⟩
  · rw [mapLast_none (fun k hk => Decidable.not_not.mp (hn k hk))]; exact hs
  · obtain ⟨k', hk'⟩ := Option.ne_none_iff_exists'.mp hk
    rw [mapLast_split hk' (fun k hk => Decidable.not_not.mp (hB k hk))]
    obtain ⟨m, h1, n, h2, h3⟩ := Steps_append.mp hs
    exact Steps_append.mpr ⟨m, h1, n, h k k' hk' _ _ h2, h3⟩

theorem stblV_shift {e : Env} {d : Int} {s : Stbl} {v} (h : StblV e s v) : StblV e (s.shift d) v := by
  refine Steps_mapLast ?_ (Steps_mapLast ?_ h)
  all_goals
    intro k k' hk s s' hs
    split at hk
    · rename_i hfc
      injection hk with hk
      subst hk
      have h1 : ¬ k.fc = cc 's' 't' 's' 'd' := by rw [hfc]; decide
      unfold StblStep at hs ⊢
      rw [if_neg h1] at hs ⊢
      exact hs
    · cases hk

theorem oneStep_map {α τ : Type} {V : α → τ → Prop} {f : α → α} (h : ∀ a v, V a v → V (f a) v) {ks : List (Kid α)} {s s' : Option τ}
    (hs : Steps (OneStep V) s ks s') : Steps (OneStep V) s (mapLast (Kid.mapNode f) ks) s' := by
  refine Steps_mapLast (fun k k' hk s s' hs => ?_) hs
  cases k with
  | raw b => cases hk
  | node ext a =>
    injection hk with hk
    subst hk
    obtain ⟨v, h1, h2⟩ := hs
    exact ⟨v, h _ _ h1, h2⟩

theorem trakV_shift {e : Env} {d : Int} {s : Spec.Trak} {v} (h : TrakV e s v) : TrakV e (s.shift d) v :=
  oneStep_map (fun _ _ => oneStep_map fun _ _ => oneStep_map fun _ _ => stblV_shift) h

/-! ### Reading again -/

/-- A loop over atoms, given what each of them does. -/
theorem walk_replay {σ κ : Type} {box : κ → Box} {handle : σ → Head → P σ} {S : σ → κ → σ → Prop} {W : κ → Prop}
    {e : Env} {G : Bytes} {limit : E Nat} {lim : Nat} (hG : G.length < 2^63) (hlim : limit e = .ok lim) (hl : lim < 2^64)
    (hh : ∀ k q s s', W k → 8 ≤ q → At G q (box k).ser → S s k s' →
      handle s (box k).hd e G (q + (box k).headLen) = .ok (s', q + (box k).ser.length)) :
    ∀ (ks : List κ) (fuel parsed p : Nat) (s s' : σ), (∀ k ∈ ks, (box k).Fits ∧ W k) → Steps S s ks s' → At G p (serL box ks) →
    8 ≤ p → ks.length < fuel → parsed + (serL box ks).length = lim →
    walk limit handle fuel s parsed e G p = .ok (s', p + (serL box ks).length) := by
  intro ks
  induction ks with
  | nil =>
    intro fuel parsed p s s' _ hS _ _ hf hp
    cases hS
    cases fuel with
    | zero => simp at hf
    | succ fuel =>
      rw [walk, P.bind_ok (E.p_ok hlim G p), P.if_apply, if_neg (by simp [serL_nil] at hp; omega)]
      rfl
  | cons k ks ih =>
    rintro fuel parsed p s s' hW ⟨m, h1, h2⟩ hat h8 hf hp
    cases fuel with
    | zero => simp at hf
    | succ fuel =>
      rw [serL_cons, List.length_append] at hp
      rw [serL_cons, At_append] at hat
      have hpos := (box k).headLen_pos
      have hsl := (box k).ser_length
      rw [walk, P.bind_ok (E.p_ok hlim G p), P.if_apply, if_pos (by omega),
        P.bind_ok (parseHead_box hat.1 (hW k List.mem_cons_self).1 hG e), P.bind_ok (hh k p s m (hW k List.mem_cons_self).2 h8 hat.1 h1)]
      have ha : addU parsed (box k).hd.size.len e = .ok (parsed + (box k).ser.length) := by
        have : (box k).hd.size.len = (box k).ser.length := by rw [hsl]; rfl
        rw [this, addU, if_pos (by omega)]
      rw [P.bind_ok (E.p_ok ha G _), ih fuel (parsed + (box k).ser.length) (p + (box k).ser.length) m s'
        (fun k hk => hW k (List.mem_cons_of_mem _ hk)) h2 hat.2 (by omega) (by simpa using hf) (by omega),
        serL_cons, List.length_append, Nat.add_assoc]

/-- A container. -/
theorem loop_replay {σ κ : Type} {box : κ → Box} {handle : σ → Head → P σ} {S : σ → κ → σ → Prop} {W : κ → Prop}
    {e : Env} {G : Bytes} (hG : Fit e G)
    (hh : ∀ k q s s', W k → 8 ≤ q → At G q (box k).ser → S s k s' →
      handle s (box k).hd e G (q + (box k).headLen) = .ok (s', q + (box k).ser.length))
    {b : Box} {q : Nat} {ks : List κ} {s s' : σ} (hat : At G q b.ser) (hq : 8 ≤ q) (hb : b.body = serL box ks)
    (hW : ∀ k ∈ ks, (box k).Fits ∧ W k) (hS : Steps S s ks s') :
    loop b.size.contentLen handle s 0 e G (q + b.headLen) = .ok (s', q + b.ser.length) := by
  have h0 := Box.body_at hat
  rw [hb] at h0
  have h1 := h0.le
  have h2 := hG.len
  have h3 := hG.fuel
  have h4 := serL_length_le box ks
  have h5 := b.ser_length
  rw [hb] at h5
  rw [loop, P.bind_ok (show getFuel e G (q + b.headLen) = .ok (e.fuel, q + b.headLen) from rfl),
    walk_replay hG.len (by rw [b.contentLen e, hb]) (by omega) hh ks e.fuel 0 _ s s' hW hS h0 (by omega) (by omega) (by omega)]
  rw [h5, Nat.add_assoc]

/-- What is read from an atom with content of the kind `ser` again. -/
def Replays (e : Env) {α τ : Type} (parse : Size → P τ) (ser : α → Bytes) (W : α → Prop) (V : α → τ → Prop) : Prop :=
  ∀ (b : Box) a v, b.body = ser a → W a → V a v → Reads e parse b v

theorem one_replays {e : Env} {α τ : Type} {parse : Size → P τ} {fc : Fourcc} {ser : α → Bytes} {W : α → Prop} {V : α → τ → Prop}
    (h : Replays e parse ser W V) :
    Replays e (fun size => loop size.contentLen (fun s h => if h.fourcc = fc then do let a ← parse h.size; pure (some a)
      else do skipContent h; pure s) none 0) (serL (Kid.box fc ser)) (fun ks => ∀ k ∈ ks, Kid.WF fc ser W k)
      (fun ks v => Steps (OneStep V) none ks v) := by
  intro b ks v hb hW hS G q hG hq hat
  refine loop_replay (box := Kid.box fc ser) (S := OneStep V) (W := Kid.WF fc ser W) hG ?_ hat hq hb (fun k hk => ⟨(hW k hk).1, hW k hk⟩) hS
  intro k q s s' hk hq hat hs
  cases k with
  | node ext a =>
    obtain ⟨v, h1, rfl⟩ := hs
    rw [if_pos (show (Kid.box fc ser (.node ext a)).hd.fourcc = fc from rfl)]
    exact P.bind_ok (h _ a v rfl hk.2 h1 G q hG hq hat)
  | raw b =>
    cases hs
    rw [if_neg (show ¬ (Kid.box fc ser (.raw b)).hd.fourcc = fc from hk.2), P.bind_ok (skipContent_box hat hG)]; rfl

theorem stbl_replays {e : Env} : Replays e parseStbl Stbl.ser Stbl.WF (StblV e) := by
  intro b ks v hb hW hS G q hG hq hat
  refine loop_replay (box := id) (S := StblStep e) (W := fun _ => True) hG ?_ hat hq hb (fun k hk => ⟨hW k hk, trivial⟩) hS
  intro k q s s' _ hq hat hs
  unfold StblStep at hs
  by_cases hfc : k.fc = cc 's' 't' 's' 'd'
  · rw [if_pos hfc] at hs
    obtain ⟨v, h1, rfl⟩ := hs
    rw [if_pos (show (id k : Box).hd.fourcc = SAMPLE_TABLE_SAMPLE_DESCRIPTION from hfc)]
    exact P.bind_ok (h1 G q hG hq hat)
  · rw [if_neg hfc] at hs
    cases hs
    rw [if_neg (show ¬ (id k : Box).hd.fourcc = SAMPLE_TABLE_SAMPLE_DESCRIPTION from hfc), P.bind_ok (skipContent_box hat hG)]; rfl

theorem trak_replays {e : Env} : Replays e parseTrak Spec.Trak.ser Spec.Trak.WF (TrakV e) :=
  one_replays (one_replays (one_replays stbl_replays))

/-! ### Reading the first time -/

section
variable {e : Env} {F : Bytes}

/-- A function that fills the content of atoms with something of the kind `ser`, and whose result means `V`. -/
def FindsV (e : Env) (F : Bytes) {α τ : Type} (parse : Size → P τ) (ser : α → Bytes) (W : α → Prop) (V : α → τ → Prop) : Prop :=
  ∀ h p, HeadOf F p h → Par e F (p + h.size.headLen) (parse h.size) fun t q =>
    Fills F (p + h.size.headLen) (h.size.len - h.size.headLen) (fun c => ∃ a, c = ser a ∧ W a ∧ V a t) q

theorem box_size_of {h : Head} {c : Bytes} (hb : (⟨h.size.ext, h.fourcc, c⟩ : Box).ser.length = h.size.len) :
    (⟨h.size.ext, h.fourcc, c⟩ : Box).size = h.size := by
  show (⟨_, _⟩ : Size) = ⟨h.size.ext, h.size.len⟩
  rw [← hb]; exact congrArg _ (Box.ser_length _).symm

/-- What is read from an atom here is read from it anywhere. -/
theorem reads_here {τ : Type} {parse : Size → P τ} (hp : ∀ s, Here e F (parse s)) {h : Head} {p : Nat} {c : Bytes} {t : τ}
    (hat : At F p (⟨h.size.ext, h.fourcc, c⟩ : Box).ser) (hb : (⟨h.size.ext, h.fourcc, c⟩ : Box).ser.length = h.size.len)
    (hm : parse h.size e F (p + h.size.headLen) = .ok (t, p + h.size.len)) : Reads e parse ⟨h.size.ext, h.fourcc, c⟩ t := by
  intro G q hG hq hatG
  have hhl : (⟨h.size.ext, h.fourcc, c⟩ : Box).headLen = h.size.headLen := rfl
  have hpos := (⟨h.size.ext, h.fourcc, c⟩ : Box).headLen_pos
  have hsl := (⟨h.size.ext, h.fourcc, c⟩ : Box).ser_length
  rw [box_size_of hb, hb, hhl]
  rw [hhl] at hpos hsl
  obtain ⟨g1, _, rfl, g2⟩ := hp h.size (q - p : Int) _ _ _ (by omega) hm
  have hle := hatG.le
  have hG1 := hG.pos
  have hle' := hat.le
  have := g2 G (q + h.size.headLen) (by omega) (by omega) (fun i hi hil => by
    have e1 : F[p + (h.size.headLen + i)]? = (⟨h.size.ext, h.fourcc, c⟩ : Box).ser[h.size.headLen + i]? := by
      have := congrArg (·[h.size.headLen + i]?) hat.2
      simpa only [List.getElem?_take, List.getElem?_drop, if_pos (show h.size.headLen + i < (⟨h.size.ext, h.fourcc, c⟩ : Box).ser.length by omega)] using this
    have e2 : G[q + (h.size.headLen + i)]? = (⟨h.size.ext, h.fourcc, c⟩ : Box).ser[h.size.headLen + i]? := by
      have := congrArg (·[h.size.headLen + i]?) hatG.2
      simpa only [List.getElem?_take, List.getElem?_drop, if_pos (show h.size.headLen + i < (⟨h.size.ext, h.fourcc, c⟩ : Box).ser.length by omega)] using this
    rw [Nat.add_assoc, Nat.add_assoc, e1, e2])
  rw [show q + h.size.headLen + (p + h.size.len - (p + h.size.headLen)) = q + h.size.len by omega] at this
  exact this

/-- A child whose value counts. -/
theorem FindsV.child {σ α τ κ : Type} {parse : Size → P τ} {ser : α → Bytes} {Wa : α → Prop} {V : α → τ → Prop} (hf : FindsV e F parse ser Wa V)
    (hs : SaneB e F) {box : κ → Box} {W : κ → Prop} {N : κ → σ → Prop} {g : τ → σ} {h : Head} {p : Nat} (hat : HeadOf F p h)
    (hk : ∀ a t, Wa a → V a t → ∃ k, W k ∧ box k = ⟨h.size.ext, h.fourcc, ser a⟩ ∧ N k (g t)) :
    Par e F (p + h.size.headLen) (do let a ← parse h.size; Pure.pure (g a)) fun s' q => Child F box W p h.size.len q fun k => N k s' := by
  have h1 := hs.size hat
  refine .bind (hf h p hat) fun t q hq => .pure ⟨by have := hq.le; omega, fun hq1 hq2 => ?_⟩
  obtain ⟨_, hc, hn, a, rfl, ha, hv⟩ := hq.fill (by omega) hq2
  obtain ⟨k, hW, hb, hN⟩ := hk a t ha hv
  obtain ⟨b1, b2, b3⟩ := box_at hs hat hc hn hb
  exact ⟨k, hW, b1, b2, b3, hN⟩

/-- A child that is read until its end. -/
theorem reads_child {σ τ κ : Type} {parse : Size → P τ} (hp : ∀ s, Here e F (parse s)) (hf : FindsAll e F parse fun _ => True)
    (hs : SaneB e F) {box : κ → Box} {W : κ → Prop} {N : κ → σ → Prop} {g : τ → σ} {h : Head} {p : Nat} (hat : HeadOf F p h)
    (hk : ∀ c t, Reads e parse ⟨h.size.ext, h.fourcc, c⟩ t → ∃ k, W k ∧ box k = ⟨h.size.ext, h.fourcc, c⟩ ∧ N k (g t)) :
    Par e F (p + h.size.headLen) (do let a ← parse h.size; Pure.pure (g a)) fun s' q => Child F box W p h.size.len q fun k => N k s' := by
  have h1 := hs.size hat
  refine .bind (Q := fun t q => parse h.size e F (p + h.size.headLen) = .ok (t, q) ∧
    Fills F (p + h.size.headLen) (h.size.len - h.size.headLen) (fun _ => True) q) (fun t q hm => ⟨hm, hf h p hat t q hm⟩) ?_
  rintro t q ⟨hm, hq⟩
  refine .pure ⟨by have := hq.le; omega, fun hq1 hq2 => ?_⟩
  obtain ⟨c, hc, hn, -⟩ := hq.fill (by omega) hq2
  obtain ⟨-, b2, b3⟩ := box_at hs hat hc hn rfl
  obtain ⟨k, hW, hb, hN⟩ := hk c t (reads_here hp b2 b3 (by rw [hm, hq1]))
  obtain ⟨b1, b2, b3⟩ := box_at hs hat hc hn hb
  exact ⟨k, hW, b1, b2, b3, hN⟩

/-- A container. -/
theorem loop_findsV {σ κ : Type} {handle : σ → Head → P σ} (hs : SaneB e F) (box : κ → Box) (W : κ → Prop) {s : σ} {S : σ → κ → σ → Prop}
    (hh : ∀ s h p, HeadOf F p h → Par e F (p + h.size.headLen) (handle s h) fun s' q =>
      Child F box W p h.size.len q fun k => S s k s') :
    FindsV e F (fun size => loop size.contentLen handle s 0) (serL box) (fun ks => ∀ k ∈ ks, (box k).Fits ∧ W k)
      (fun ks s' => Steps S s ks s') := by
  intro h p hat
  have h1 := hs.size hat
  refine .bind (Q := fun _ q => p + h.size.headLen = q) (Tot.par (.getFuel rfl)) ?_
  rintro f _ rfl
  refine (walk_steps (handle := handle) (S := S) hs (contentLen_sane h1.1) (by omega) hh f s 0 _).mono fun t q hq => ?_
  refine ⟨hq.le, fun a b => ?_⟩
  obtain ⟨_, hc, hn, ks, rfl, h2, h3⟩ := hq.fill a b
  exact ⟨_, hc, hn, ks, rfl, h2, h3⟩

theorem one_findsV (hs : SaneB e F) {α τ : Type} {parse : Size → P τ} {fc : Fourcc} {ser : α → Bytes} {W : α → Prop} {V : α → τ → Prop}
    (hf : FindsV e F parse ser W V) :
    FindsV e F (fun size => loop size.contentLen (fun s h => if h.fourcc = fc then do let a ← parse h.size; pure (some a)
      else do skipContent h; pure s) none 0) (serL (Kid.box fc ser)) (fun ks => ∀ k ∈ ks, Kid.WF fc ser W k)
      (fun ks v => Steps (OneStep V) none ks v) := by
  intro h p hat
  refine (loop_findsV hs (Kid.box fc ser) (fun k => match k with
    | .node _ a => W a
    | .raw b => b.fc ≠ fc) (S := OneStep V) (fun s h p hat => .ite (fun hfc => ?_) fun hfc => ?_) h p hat).mono fun t q hq =>
    ⟨hq.le, fun a b => ?_⟩
  · exact hf.child hs hat (N := fun k s' => OneStep V s k s') fun a t ha hv =>
      ⟨.node h.size.ext a, ha, by rw [hfc]; rfl, t, hv, rfl⟩
  · intro s' q hm
    have hch := skip_fills (box := Kid.box fc ser) (W := fun k => match k with
      | .node _ a => W a
      | .raw b => b.fc ≠ fc) (N := fun k => k.sel = none) hs s hat (fun c => ⟨.raw ⟨h.size.ext, h.fourcc, c⟩, hfc, rfl, rfl⟩) s' q hm
    obtain ⟨a, q1, hm1, hm2⟩ := P.bind_inv hm
    obtain ⟨rfl, rfl⟩ := P.pure_inv hm2
    refine ⟨hch.le, fun a b => ?_⟩
    obtain ⟨k, a, b, c, d, hu⟩ := hch.fill a b
    refine ⟨k, a, b, c, d, ?_⟩
    cases k with
    | node ext a => cases hu
    | raw b => rfl
  · obtain ⟨c, hc, hn, ks, rfl, h2, h3⟩ := hq.fill a b
    exact ⟨_, hc, hn, ks, rfl, fun k hk => h2 k hk, h3⟩

theorem stbl_findsV (hc : e.checked = true) (hs : SaneB e F) : FindsV e F parseStbl Stbl.ser Stbl.WF (StblV e) := by
  intro h p hat
  refine (loop_findsV hs id (fun _ => True) (S := StblStep e) (fun s h p hat => .ite (fun hfc => ?_) fun hfc => ?_) h p hat).mono fun t q hq =>
    ⟨hq.le, fun a b => ?_⟩
  · exact reads_child (fun s => Here.parseStsd hc hs s) (parseStsd_fills hs) hs hat (N := fun k s' => StblStep e s k s') fun c t ht =>
      ⟨⟨h.size.ext, h.fourcc, c⟩, trivial, rfl, by
        unfold StblStep
        rw [if_pos (show h.fourcc = cc 's' 't' 's' 'd' from hfc)]
        exact ⟨t, ht, rfl⟩⟩
  · intro s' q hm
    have hch := skip_fills (box := (id : Box → Box)) (W := fun _ => True) (N := fun k => ¬ k.fc = cc 's' 't' 's' 'd') hs s hat
      (fun c => ⟨⟨h.size.ext, h.fourcc, c⟩, trivial, rfl, hfc⟩) s' q hm
    obtain ⟨a, q1, hm1, hm2⟩ := P.bind_inv hm
    obtain ⟨rfl, rfl⟩ := P.pure_inv hm2
    refine ⟨hch.le, fun a b => ?_⟩
    obtain ⟨k, a, b, c, d, hu⟩ := hch.fill a b
    exact ⟨k, a, b, c, d, by unfold StblStep; rw [if_neg hu]⟩
  · obtain ⟨c, hc, hn, ks, rfl, h2, h3⟩ := hq.fill a b
    exact ⟨_, hc, hn, ks, rfl, fun k hk => (h2 k hk).1, h3⟩

theorem trak_findsV (hc : e.checked = true) (hs : SaneB e F) : FindsV e F parseTrak Spec.Trak.ser Spec.Trak.WF (TrakV e) :=
  one_findsV hs (one_findsV hs (one_findsV hs (stbl_findsV hc hs)))

/-! ### The movie atom -/

/-- What a child of the movie atom does to the result. -/
def MovieStep (e : Env) (s : Mp4.Moov) (k : MoovKid) (s' : Mp4.Moov) : Prop :=
  match k with
  | .trak _ t => ∃ v, TrakV e t v ∧ s' = { s with trak := s.trak ++ [v] }
  | .udta _ u => ∃ r, LastOf Kid.sel MetaItems u r ∧ s' = { s with udta := some (r.map (Option.map group)) }
  | .raw b => if b.fc = cc 'm' 'v' 'h' 'd' then ∃ n, Reads e parseMvhd b n ∧ s' = { s with mvhd := some n } else s' = s

theorem moovHandle_stepV (hc : e.checked = true) (hs : SaneB e F) {s : Mp4.Moov} {h : Head} {p : Nat} (hat : HeadOf F p h) :
    Par e F (p + h.size.headLen) (moovHandle s h) fun s' q =>
      Child F MoovKid.box (fun k => k.box.Fits → k.WF) p h.size.len q fun k => MovieStep e s k s' := by
  have h1 := hs.size hat
  unfold moovHandle
  refine .ite (fun hfc => ?_) fun hfc1 => .ite (fun hfc => ?_) fun hfc2 => .ite (fun hfc => ?_) fun hfc3 => ?_
  · refine reads_child (fun s => Here.parseMvhd hc hs.max s) (parseMvhd_fills hs) hs hat (N := fun k s' => MovieStep e s k s') fun c t ht =>
      ⟨.raw ⟨h.size.ext, h.fourcc, c⟩, fun hf => ⟨hf, fun hx => absurd (hfc.symm.trans hx) (by decide),
        fun hx => absurd (hfc.symm.trans hx) (by decide)⟩, rfl, ?_⟩
    show if h.fourcc = cc 'm' 'v' 'h' 'd' then _ else _
    rw [if_pos (show h.fourcc = cc 'm' 'v' 'h' 'd' from hfc)]
    exact ⟨t, ht, rfl⟩
  · exact (trak_findsV hc hs).child hs hat (N := fun k s' => MovieStep e s k s') fun a t ha hv =>
      ⟨.trak h.size.ext a, fun hf => ⟨hf, ha⟩, by rw [hfc]; rfl, t, hv, rfl⟩
  · refine .bind (Q := fun a q => parseUdta h.size e F (p + h.size.headLen) = .ok (a, q) ∧ Fills F (p + h.size.headLen)
      (h.size.len - h.size.headLen) (fun c => ∃ s : Udta, c = s.ser ∧ s.WF ∧ ∃ r, LastOf Kid.sel MetaItems s r) q)
      (fun a q hm => ⟨hm, parseUdta_fills hs h p hat a q hm⟩) ?_
    rintro a q ⟨hm, hq⟩
    refine .pure ⟨by have := hq.le; omega, fun hq1 hq2 => ?_⟩
    obtain ⟨_, hc, hn, u, rfl, hw, r, hr⟩ := hq.fill (by omega) hq2
    obtain ⟨b1, b2, b3⟩ := box_at hs hat hc hn rfl
    refine ⟨.udta h.size.ext u, fun hf => ⟨hf, hw⟩, by rw [hfc] at b1; exact b1, by rw [hfc] at b2; exact b2,
      by rw [hfc] at b3; exact b3, r, hr, ?_⟩
    have := parseUdta_at hs.fit b2 rfl hw hr
    rw [box_size_of b3, show (⟨h.size.ext, h.fourcc, u.ser⟩ : Box).headLen = h.size.headLen from rfl, hm] at this
    injection this with this
    injection this with this
    rw [this]
  · intro s' q hm
    have hch := skip_fills (box := MoovKid.box) (W := fun k => k.box.Fits → k.WF)
      (N := fun k => ∃ b, k = .raw b ∧ ¬ b.fc = cc 'm' 'v' 'h' 'd') hs s hat
      (fun c => ⟨.raw ⟨h.size.ext, h.fourcc, c⟩, fun hf => ⟨hf, hfc2, hfc3⟩, rfl, _, rfl, hfc1⟩) s' q hm
    obtain ⟨a, q1, hm1, hm2⟩ := P.bind_inv hm
    obtain ⟨rfl, rfl⟩ := P.pure_inv hm2
    refine ⟨hch.le, fun a b => ?_⟩
    obtain ⟨k, a, b, c, d, x, rfl, hu⟩ := hch.fill a b
    refine ⟨_, a, b, c, d, ?_⟩
    show if x.fc = cc 'm' 'v' 'h' 'd' then _ else _
    rw [if_neg hu]

theorem moov_findsV (hc : e.checked = true) (hs : SaneB e F) : FindsV e F parseMoov Spec.Moov.ser Spec.Moov.WF
    (fun m t => Steps (MovieStep e) {} m t) := by
  intro h p hat
  refine (loop_findsV hs MoovKid.box (fun k => k.box.Fits → k.WF) (S := MovieStep e) (fun s h p hat => moovHandle_stepV hc hs hat) h p hat).mono
    fun t q hq => ⟨hq.le, fun a b => ?_⟩
  obtain ⟨c, hc, hn, ks, rfl, h2, h3⟩ := hq.fill a b
  exact ⟨_, hc, hn, ks, rfl, fun k hk => (h2 k hk).2 (h2 k hk).1, h3⟩

theorem moov_replays : Replays e parseMoov Spec.Moov.ser Spec.Moov.WF (fun m t => Steps (MovieStep e) {} m t) := by
  intro b ks v hb hW hS G q hG hq hat
  refine loop_replay (box := MoovKid.box) (S := MovieStep e) (W := MoovKid.WF) hG ?_ hat hq hb (fun k hk => ⟨(hW k hk).1, hW k hk⟩) hS
  intro k q s s' hw hq hat hst
  cases k with
  | trak ext t =>
    obtain ⟨v, h1, rfl⟩ := hst
    have hm : ¬ (MoovKid.trak ext t).box.hd.fourcc = MOVIE_HEADER := by show ¬ TRACK = MOVIE_HEADER; decide
    have ht : (MoovKid.trak ext t).box.hd.fourcc = TRACK := rfl
    rw [moovHandle, if_neg hm, if_pos ht]
    exact P.bind_ok (trak_replays (MoovKid.trak ext t).box t v rfl hw.2 h1 G q hG hq hat)
  | udta ext u =>
    obtain ⟨r, h1, rfl⟩ := hst
    have hm : ¬ (MoovKid.udta ext u).box.hd.fourcc = MOVIE_HEADER := by show ¬ USER_DATA = MOVIE_HEADER; decide
    have ht : ¬ (MoovKid.udta ext u).box.hd.fourcc = TRACK := by show ¬ USER_DATA = TRACK; decide
    have hu : (MoovKid.udta ext u).box.hd.fourcc = USER_DATA := rfl
    rw [moovHandle, if_neg hm, if_neg ht, if_pos hu]
    exact P.bind_ok (parseUdta_at hG hat rfl hw.2 h1)
  | raw b =>
    change if b.fc = cc 'm' 'v' 'h' 'd' then _ else _ at hst
    by_cases hm : b.fc = cc 'm' 'v' 'h' 'd'
    · rw [if_pos hm] at hst
      obtain ⟨n, h1, rfl⟩ := hst
      rw [moovHandle, if_pos (show (MoovKid.raw b).box.hd.fourcc = MOVIE_HEADER from hm)]
      exact P.bind_ok (h1 G q hG hq hat)
    · rw [if_neg hm] at hst
      cases hst
      rw [moovHandle, if_neg (show ¬ (MoovKid.raw b).box.hd.fourcc = MOVIE_HEADER from hm),
        if_neg (show ¬ (MoovKid.raw b).box.hd.fourcc = TRACK from hw.2.1),
        if_neg (show ¬ (MoovKid.raw b).box.hd.fourcc = USER_DATA from hw.2.2), P.bind_ok (skipContent_box hat hG)]; rfl

/-! ### Putting items -/

theorem movieStep_udta {e : Env} {s s' : Mp4.Moov} {k : MoovKid} (x) (hk : ¬ isUdta k) (h : MovieStep e s k s') :
    MovieStep e { s with udta := x } k { s' with udta := x } := by
  cases k with
  | trak ext t => obtain ⟨v, h1, rfl⟩ := h; exact ⟨v, h1, rfl⟩
  | udta ext u => exact absurd trivial hk
  | raw b =>
    change if b.fc = cc 'm' 'v' 'h' 'd' then _ else _ at h
    show if b.fc = cc 'm' 'v' 'h' 'd' then _ else _
    split at h
    · rename_i hm
      rw [if_pos hm]
      obtain ⟨n, h1, rfl⟩ := h
      exact ⟨n, h1, rfl⟩
    · rename_i hm
      rw [if_neg hm, h]

theorem movieSteps_udta {e : Env} (x) : ∀ {ks : List MoovKid} {s s' : Mp4.Moov}, (∀ k ∈ ks, ¬ isUdta k) → Steps (MovieStep e) s ks s' →
    Steps (MovieStep e) { s with udta := x } ks { s' with udta := x }
  | [], _, _, _, h => by cases h; rfl
  | _ :: _, _, _, hk, ⟨_, h1, h2⟩ =>
    ⟨_, movieStep_udta x (hk _ List.mem_cons_self) h1, movieSteps_udta x (fun k hx => hk k (List.mem_cons_of_mem _ hx)) h2⟩

theorem movieStep_mapTrak {e : Env} {g : Spec.Trak → Spec.Trak} (hg : ∀ t v, TrakV e t v → TrakV e (g t) v) (s : Mp4.Moov) (k : MoovKid)
    (s' : Mp4.Moov) (h : MovieStep e s k s') : MovieStep e s (k.mapTrak g) s' := by
  cases k with
  | trak ext t => obtain ⟨v, h1, rfl⟩ := h; exact ⟨v, hg _ _ h1, rfl⟩
  | udta ext u => exact h
  | raw b => exact h

theorem udtaItems_some {u : Udta} {items} (h : UdtaItems u (some items)) : LastOf Kid.sel MetaItems u (some (some items)) := by
  obtain ⟨q, h1, h2⟩ := h
  cases q with
  | none => cases h2
  | some q => cases q with
    | none => cases h2
    | some i => cases h2; exact h1

/-- Reading the movie with the items put into it. -/
theorem movieSteps_put {e : Env} {m : Spec.Moov} {t : Mp4.Moov} {atoms : List AtomData} {items} {g : Spec.Trak → Spec.Trak}
    (hg : ∀ t v, TrakV e t v → TrakV e (g t) v) (h : Steps (MovieStep e) {} m t) (hi : IlstBody (ilstBox atoms).body items) :
    Steps (MovieStep e) {} (m.put g atoms) { t with udta := some (some (some (group items))) } := by
  rcases moovPut_cases g m atoms with ⟨hn, hp⟩ | ⟨A, ext, u, B, rfl, hB, hp⟩
  · rw [hp]
    exact Steps_append.mpr ⟨t, Steps_map (movieStep_mapTrak hg) h, _, ⟨_, udtaItems_some (newUdta_content hi), rfl⟩, rfl⟩
  · rw [hp]
    obtain ⟨x, h1, y, ⟨r, hr, rfl⟩, h3⟩ := Steps_append.mp h
    have h4 := movieSteps_udta (some (some (some (group items)))) hB h3
    exact Steps_append.mpr ⟨x, Steps_map (movieStep_mapTrak hg) h1, _,
      ⟨_, udtaItems_some (udtaItems_put ⟨r, hr, rfl⟩ hi), rfl⟩, h4⟩

end
end Mp4
