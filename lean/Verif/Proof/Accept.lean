import Verif.Spec.Accept
import Verif.Proof.Provenance
import Verif.Proof.Multi
/-
Arbitrary input: what the search accepts is well-formed.
-/
namespace Mp4
open Spec

section
variable {e : Env} {F : Bytes}

/-- What is known after a part of the search that began at `p` and should have ended `n` bytes later: it did not end in front of
that; and if it ended exactly there, then there is something of the length with `C`. -/
structure Fills (F : Bytes) (p n : Nat) (C : Bytes → Prop) (q : Nat) : Prop where
  le : p + n ≤ q
  fill : q = p + n → q ≤ F.length → ∃ c, At F p c ∧ c.length = n ∧ C c

/-- A search function that fills the content of atoms. -/
def FindsAll (e : Env) (F : Bytes) {τ} (find : Size → P τ) (C : Bytes → Prop) : Prop :=
  ∀ h p, HeadOf F p h → Par e F (p + h.size.headLen) (find h.size) fun _ q =>
    Fills F (p + h.size.headLen) (h.size.len - h.size.headLen) C q

/-- What is known after a child of the kind `κ`. -/
structure Child (F : Bytes) {κ : Type} (box : κ → Box) (W : κ → Prop) (p n q : Nat) (N : κ → Prop) : Prop where
  le : p + n ≤ q
  fill : q = p + n → q ≤ F.length → ∃ k, W k ∧ (box k).Fits ∧ At F p (box k).ser ∧ (box k).ser.length = n ∧ N k

theorem headBytes_box {h : Head} {c : Bytes} (hc : h.size.len = h.size.headLen + c.length) :
    headBytes h.size.ext h.fourcc h.size.len = (⟨h.size.ext, h.fourcc, c⟩ : Box).head := by
  obtain ⟨⟨ext, len⟩, fc⟩ := h
  cases ext <;> (dsimp only [Size.headLen] at hc; simp only [Bool.false_eq_true, if_false, if_true] at hc; subst hc)
  · show _ = be32 _ ++ _
    rw [Nat.add_comm]; rfl
  · show _ = be32 1 ++ _ ++ be64 _
    rw [Nat.add_comm c.length]; rfl

/-- The atom with a head and the content that fills it. -/
theorem box_at (hs : SaneB e F) {h : Head} {p : Nat} (hat : HeadOf F p h) {c : Bytes} (hc : At F (p + h.size.headLen) c)
    (hn : c.length = h.size.len - h.size.headLen) {b : Box} (hb : b = ⟨h.size.ext, h.fourcc, c⟩) :
    b.Fits ∧ At F p b.ser ∧ b.ser.length = h.size.len := by
  subst hb
  have h1 := hs.size hat
  have h2 : h.size.len = h.size.headLen + c.length := by omega
  have h3 := headBytes_box h2
  have hlen : (⟨h.size.ext, h.fourcc, c⟩ : Box).head.length = h.size.headLen := by
    rw [← h3, headBytes_length]; rfl
  refine ⟨fun hx => ?_, At_append.mpr ⟨h3 ▸ hat.1, by rw [hlen]; exact hc⟩, ?_⟩
  · have := hat.2.1
    have hx' : h.size.ext = false := hx
    rw [hx'] at this
    have h8 : h.size.headLen = 8 := by rw [Size.headLen, hx']; rfl
    simp only [Bool.false_eq_true, if_false] at this
    show c.length + 8 < 2^32
    omega
  · rw [Box.ser, List.length_append, hlen]; exact h2.symm

/-- A child that is searched. -/
theorem FindsAll.child {σ τ κ : Type} {find : Size → P τ} {C : Bytes → Prop} (hf : FindsAll e F find C) (hs : SaneB e F)
    {box : κ → Box} {W N : κ → Prop} {g : τ → σ} {h : Head} {p : Nat} (hat : HeadOf F p h)
    (hk : ∀ c, C c → ∃ k, W k ∧ box k = ⟨h.size.ext, h.fourcc, c⟩ ∧ N k) :
    Par e F (p + h.size.headLen) (do let a ← find h.size; Pure.pure (g a)) fun _ q => Child F box W p h.size.len q N := by
  have h1 := hs.size hat
  refine .bind (hf h p hat) fun a q hq => .pure ⟨by have := hq.le; omega, fun hq1 hq2 => ?_⟩
  obtain ⟨c, hc, hn, hC⟩ := hq.fill (by omega) hq2
  obtain ⟨k, hW, hb, hN⟩ := hk c hC
  obtain ⟨b1, b2, b3⟩ := box_at hs hat hc hn hb
  exact ⟨k, hW, b1, b2, b3, hN⟩

theorem fills_end {h : Head} {p : Nat} (hs : SaneB e F) (hat : HeadOf F p h) :
    Fills F (p + h.size.headLen) (h.size.len - h.size.headLen) (fun _ => True) (p + h.size.len) := by
  have h1 := hs.size hat
  exact ⟨by omega, fun hq hle => ⟨(F.drop (p + h.size.headLen)).take (h.size.len - h.size.headLen), At_take (by omega), by rw [List.length_take, List.length_drop]; omega, trivial⟩⟩

theorem findLeaf_fills (hs : SaneB e F) : FindsAll e F findLeaf fun _ => True := by
  intro h p hat
  have h1 := hs.size hat
  have h2 := hat.le
  have h3 := hs.fit.len
  have h4 := hs.fit.pos
  have h5 := hs.max
  refine .bind (Tot.par (.findBounds (Q := fun b q => b = ⟨p, h.size⟩ ∧ q = p + h.size.headLen) ⟨rfl, rfl⟩)) ?_
  rintro _ _ ⟨rfl, rfl⟩
  refine .bind (Tot.par (.seekToEnd h5 (b := ⟨p, h.size⟩) (by dsimp only; omega) (by omega) fun h => absurd h (by dsimp only; omega))) ?_
  rintro _ _ rfl
  exact .pure (fills_end hs hat)

theorem skip_fills {σ κ : Type} (hs : SaneB e F) {box : κ → Box} {W N : κ → Prop} (s : σ) {h : Head} {p : Nat} (hat : HeadOf F p h)
    (hk : ∀ c, ∃ k, W k ∧ box k = ⟨h.size.ext, h.fourcc, c⟩ ∧ N k) :
    Par e F (p + h.size.headLen) (do Mp4.skipContent h; Pure.pure s) fun _ q => Child F box W p h.size.len q N := by
  have h1 := hs.size hat
  refine .bind (Q := fun _ q => q = p + h.size.len) ?_ fun a q hq => .pure ?_
  · refine .bind (Tot.par (.E (Q := fun n r => n = h.size.len - h.size.headLen ∧ r = p + h.size.headLen) (contentLen_sane h1.1) ⟨rfl, rfl⟩)) ?_
    rintro n _ ⟨hn, rfl⟩
    rw [asI64_small (by omega)]
    exact Tot.par (.seekCur fun r hr _ => by omega)
  · subst hq
    have hq := fills_end hs hat
    refine ⟨by omega, fun hq1 hq2 => ?_⟩
    obtain ⟨c, hc, hn, -⟩ := hq.fill (by omega) hq2
    obtain ⟨k, hW, hb, hN⟩ := hk c
    obtain ⟨b1, b2, b3⟩ := box_at hs hat hc hn hb
    exact ⟨k, hW, b1, b2, b3, hN⟩

/-- A loop over children. If the state says `M` in the end, then it did so before or one of the children is an `N`. -/
theorem walk_fills {σ κ : Type} {limit : E Nat} {handle : σ → Head → P σ} {lim : Nat} (hs : SaneB e F) (hl : limit e = .ok lim)
    (hlim : lim < 2^63) {box : κ → Box} {W N : κ → Prop} {M : σ → Prop}
    (hh : ∀ s h p, HeadOf F p h → Par e F (p + h.size.headLen) (handle s h) fun s' q =>
      Child F box W p h.size.len q fun k => M s' → M s ∨ N k) :
    ∀ f s parsed p, Par e F p (walk limit handle f s parsed) fun s' q =>
      Fills F p (lim - parsed) (fun c => ∃ ks : List κ, c = serL box ks ∧ (∀ k ∈ ks, (box k).Fits ∧ W k) ∧
        (M s' → M s ∨ ∃ k ∈ ks, N k)) q := by
  intro f
  induction f with
  | zero => intro s parsed p a q h; cases h
  | succ f ih =>
    intro s parsed p
    rw [walk]
    refine .bind (Tot.par (.E (Q := fun n q => lim = n ∧ p = q) hl ⟨rfl, rfl⟩)) ?_
    rintro _ _ ⟨rfl, rfl⟩
    refine .ite (fun hlt => ?_) fun hge => .pure ?_
    · refine .bind (.parseHead (Q := fun hd q => HeadOf F p hd ∧ q = p + hd.size.headLen) fun hd h => ⟨h, rfl⟩) ?_
      rintro hd _ ⟨hat, rfl⟩
      have hsz := hs.size hat
      refine .bind (hh s hd p hat) fun s' q hq => ?_
      refine .bind (Tot.par (.addU (Q := fun n r => n = parsed + hd.size.len ∧ q = r) (by omega) ⟨rfl, rfl⟩)) ?_
      rintro _ _ ⟨rfl, rfl⟩
      refine (ih s' (parsed + hd.size.len) q).mono fun s2 r hr => ?_
      have hq1 := hq.le
      have hr1 := hr.le
      refine ⟨by omega, fun he hle => ?_⟩
      obtain ⟨c, hc, hcl, ks, rfl, hks, hM⟩ := hr.fill (by omega) hle
      obtain ⟨k, hW, hfit, hk, hkl, hN⟩ := hq.fill (by omega) (by omega)
      refine ⟨serL box (k :: ks), ?_, ?_, k :: ks, rfl, ?_, ?_⟩
      · rw [serL_cons]
        exact At_append.mpr ⟨hk, by rw [hkl, show p + hd.size.len = q by omega]; exact hc⟩
      · rw [serL_cons, List.length_append]; omega
      · intro x hx
        rcases List.mem_cons.mp hx with rfl | hx
        · exact ⟨hfit, hW⟩
        · exact hks x hx
      · intro h
        rcases hM h with h | ⟨x, hx, hn⟩
        · rcases hN h with h | h
          · exact .inl h
          · exact .inr ⟨k, List.mem_cons_self, h⟩
        · exact .inr ⟨x, List.mem_cons_of_mem _ hx, hn⟩
    · refine ⟨by omega, fun he hle => ⟨[], ⟨by simpa using hle, rfl⟩, ?_, [], rfl, by simp, .inl⟩⟩
      simp; omega

/-- `walk_fills` for `loop`. -/
theorem loop_fills {σ κ : Type} {limit : E Nat} {handle : σ → Head → P σ} {lim : Nat} (hs : SaneB e F) (hl : limit e = .ok lim)
    (hlim : lim < 2^63) {box : κ → Box} {W N : κ → Prop} {M : σ → Prop}
    (hh : ∀ s h p, HeadOf F p h → Par e F (p + h.size.headLen) (handle s h) fun s' q =>
      Child F box W p h.size.len q fun k => M s' → M s ∨ N k) (s : σ) (parsed p : Nat) :
    Par e F p (loop limit handle s parsed) fun s' q =>
      Fills F p (lim - parsed) (fun c => ∃ ks : List κ, c = serL box ks ∧ (∀ k ∈ ks, (box k).Fits ∧ W k) ∧
        (M s' → M s ∨ ∃ k ∈ ks, N k)) q := by
  refine .bind (Q := fun _ q => p = q) (Tot.par (.getFuel rfl)) ?_
  rintro f _ rfl
  exact walk_fills hs hl hlim hh f s parsed _

/-- A searched container. -/
theorem find_fills {σ κ : Type} {handle : σ → Head → P σ} (hs : SaneB e F) (box : κ → Box) (W : κ → Prop) {s : AtomBounds → σ}
    {C : Bytes → Prop} (hC : ∀ ks : List κ, (∀ k ∈ ks, (box k).Fits ∧ W k) → C (serL box ks))
    (hh : ∀ s h p, HeadOf F p h → Par e F (p + h.size.headLen) (handle s h) fun _ q =>
      Child F box W p h.size.len q fun _ => True) {h : Head} {p : Nat} (hat : HeadOf F p h) :
    Par e F (p + h.size.headLen) (do let b ← findBounds h.size; loop h.size.contentLen handle (s b) 0) fun _ q =>
      Fills F (p + h.size.headLen) (h.size.len - h.size.headLen) C q := by
  have h1 := hs.size hat
  refine .bind (Tot.par (.findBounds (Q := fun b q => b = ⟨p, h.size⟩ ∧ q = p + h.size.headLen) ⟨rfl, rfl⟩)) ?_
  rintro _ _ ⟨rfl, rfl⟩
  refine (loop_fills (M := fun _ => False) (N := fun _ => True) hs (contentLen_sane h1.1) (by omega)
    (fun s h p hat => (hh s h p hat).mono fun _ q hq => ⟨hq.le, fun a b => by
      obtain ⟨k, a, b, c, d, -⟩ := hq.fill a b
      exact ⟨k, a, b, c, d, fun h => h.elim⟩⟩) _ 0 _).mono fun _ q hq => ?_
  refine ⟨hq.le, fun a b => ?_⟩
  obtain ⟨c, hc, hn, ks, rfl, h2, -⟩ := hq.fill a b
  exact ⟨_, hc, hn, hC ks h2⟩

theorem findStbl_fills (hs : SaneB e F) : FindsAll e F findStbl fun c => ∃ s : Stbl, c = s.ser ∧ s.WF := by
  refine fun _ _ => find_fills hs id (fun _ => True) (s := fun b => ({ bounds := b } : StblBounds)) (C := fun c => ∃ s : Stbl, c = s.ser ∧ s.WF) (fun ks hk => ⟨ks, rfl, fun b hb => (hk b hb).1⟩)
    fun s h p hat => ?_
  have key : ∀ c, ∃ k : Box, True ∧ id k = ⟨h.size.ext, h.fourcc, c⟩ ∧ True := fun c => ⟨_, trivial, rfl, trivial⟩
  exact .ite (fun _ => (findLeaf_fills hs).child hs hat fun c _ => key c) fun _ =>
    .ite (fun _ => (findLeaf_fills hs).child hs hat fun c _ => key c) fun _ => skip_fills hs _ hat key

/-- A container that interprets one kind of child. -/
theorem find_one_fills (hs : SaneB e F) {α τ : Type} {find : Size → P τ} {fc : Fourcc} {ser : α → Bytes} {R : α → Prop}
    (hf : FindsAll e F find fun c => ∃ a, c = ser a ∧ R a) :
    FindsAll e F (fun size => do
      let _ ← findBounds size
      loop size.contentLen (fun s h => if h.fourcc = fc then do let a ← find h.size; pure (some a) else do skipContent h; pure s) none 0)
      (fun c => ∃ ks : List (Kid α), c = serL (Kid.box fc ser) ks ∧ ∀ k ∈ ks, Kid.WF fc ser R k) := by
  refine fun _ _ => find_fills hs (Kid.box fc ser) (fun k => match k with
    | .node _ a => R a
    | .raw b => b.fc ≠ fc) (s := fun _ => none) (fun ks hk => ⟨ks, rfl, hk⟩) fun s h p hat => .ite (fun hfc => ?_) fun hfc => ?_
  · refine hf.child hs hat ?_
    rintro c ⟨a, rfl, ha⟩
    exact ⟨.node h.size.ext a, ha, by rw [hfc]; rfl, trivial⟩
  · exact skip_fills hs _ hat fun c => ⟨.raw ⟨h.size.ext, h.fourcc, c⟩, hfc, rfl, trivial⟩

theorem findMinf_fills (hs : SaneB e F) : FindsAll e F findMinf fun c => ∃ s : Minf, c = s.ser ∧ s.WF :=
  find_one_fills hs (findStbl_fills hs)
theorem findMdia_fills (hs : SaneB e F) : FindsAll e F findMdia fun c => ∃ s : Spec.Mdia, c = s.ser ∧ s.WF :=
  find_one_fills hs (findMinf_fills hs)
theorem findTrak_fills (hs : SaneB e F) : FindsAll e F findTrak fun c => ∃ s : Spec.Trak, c = s.ser ∧ s.WF :=
  find_one_fills hs (findMdia_fills hs)

theorem findMeta_fills (hs : SaneB e F) : FindsAll e F findMeta fun c => ∃ s : Meta, c = s.ser ∧ s.WF := by
  intro h p hat
  have h1 := hs.size hat
  refine .bind (Tot.par (.findBounds (Q := fun b q => b = ⟨p, h.size⟩ ∧ q = p + h.size.headLen) ⟨rfl, rfl⟩)) ?_
  rintro _ _ ⟨rfl, rfl⟩
  refine .bind (.parseFullHead (Q := fun x q => q = p + h.size.headLen + 4 ∧ x.2.length = 3 ∧ At F (p + h.size.headLen) (x.1 :: x.2))
    fun v fl h1 h2 => ⟨rfl, h1, h2⟩) ?_
  rintro ⟨v, fl⟩ _ ⟨rfl, hfl, hat4⟩
  dsimp only at hfl hat4 ⊢
  refine .ite (fun _ => .fail) fun hv => ?_
  have hv : v = 0 := Decidable.not_not.mp hv
  subst hv
  have h4 := hat4.le
  rw [List.length_cons, hfl] at h4
  refine (loop_fills (M := fun _ => False) (N := fun _ => True) (box := id) (W := fun _ => True) hs (contentLen_sane h1.1) (by omega)
    (fun s h p hat => ?_) _ 4 _).mono fun _ q hq => ?_
  · have key : ∀ c, ∃ k : Box, True ∧ id k = ⟨h.size.ext, h.fourcc, c⟩ ∧ (False → False ∨ True) := fun c => ⟨_, trivial, rfl, fun h => h.elim⟩
    exact .ite (fun _ => (findLeaf_fills hs).child hs hat fun c _ => key c) fun _ =>
      .ite (fun _ => (findLeaf_fills hs).child hs hat fun c _ => key c) fun _ => skip_fills hs _ hat key
  · have hq1 := hq.le
    refine ⟨by omega, fun a b => ?_⟩
    obtain ⟨_, hc, hn, ks, rfl, h2, -⟩ := hq.fill (by omega) b
    refine ⟨Meta.ser ⟨fl, ks⟩, ?_, ?_, _, rfl, hfl, fun b hb => (h2 b hb).1⟩
    · exact At_append.mpr ⟨hat4, by rw [List.length_cons, hfl]; exact hc⟩
    · rw [Meta.ser, List.length_append, hn, List.length_cons, hfl]; omega

theorem findUdta_fills (hs : SaneB e F) : FindsAll e F findUdta fun c => ∃ s : Udta, c = s.ser ∧ s.WF := by
  refine fun _ _ => find_fills hs (Kid.box (cc 'm' 'e' 't' 'a') Meta.ser) (fun k => match k with
    | .node _ a => a.WF
    | .raw b => b.fc ≠ (cc 'm' 'e' 't' 'a')) (s := fun b => ({ bounds := b } : UdtaBounds)) (C := fun c => ∃ s : Udta, c = s.ser ∧ s.WF) (fun ks hk => ⟨ks, rfl, fun k hx => by have := hk k hx; cases k <;> exact this⟩) fun s h p hat => .ite (fun hfc => ?_) fun hfc => ?_
  · refine (findMeta_fills hs).child hs hat ?_
    rintro c ⟨a, rfl, ha⟩
    exact ⟨.node h.size.ext a, ha, by rw [hfc]; rfl, trivial⟩
  · exact skip_fills hs _ hat fun c => ⟨.raw ⟨h.size.ext, h.fourcc, c⟩, hfc, rfl, trivial⟩

theorem findMoov_fills (hs : SaneB e F) : FindsAll e F findMoov fun c => ∃ s : Spec.Moov, c = s.ser ∧ s.WF := by
  refine fun _ _ => find_fills hs MoovKid.box (fun k => match k with
    | .trak _ t => t.WF
    | .udta _ u => u.WF
    | .raw b => b.fc ≠ cc 't' 'r' 'a' 'k' ∧ b.fc ≠ cc 'u' 'd' 't' 'a') (s := fun b => ({ bounds := b } : MoovBounds))
    (C := fun c => ∃ s : Spec.Moov, c = s.ser ∧ s.WF) (fun ks hk => ⟨ks, rfl, hk⟩) fun s h p hat => .ite (fun hfc => ?_) fun hfc =>
      .ite (fun hfc' => ?_) fun hfc' => ?_
  · refine (findTrak_fills hs).child hs hat ?_
    rintro c ⟨a, rfl, ha⟩
    exact ⟨.trak h.size.ext a, ha, by rw [hfc]; rfl, trivial⟩
  · refine (findUdta_fills hs).child hs hat ?_
    rintro c ⟨a, rfl, ha⟩
    exact ⟨.udta h.size.ext a, ha, by rw [hfc']; rfl, trivial⟩
  · exact skip_fills hs _ hat fun c => ⟨.raw ⟨h.size.ext, h.fourcc, c⟩, ⟨hfc, hfc'⟩, rfl, trivial⟩

theorem parseFtyp_fills (hs : SaneB e F) {p : Nat} : Par e F p parseFtyp fun s q =>
    q ≤ F.length ∧ ∃ b : Box, b.fc = cc 'f' 't' 'y' 'p' ∧ b.body = utf8 s ∧ b.Fits ∧ At F p b.ser ∧ q = p + b.ser.length := by
  refine .bind (.parseHead (Q := fun hd q => HeadOf F p hd ∧ q = p + hd.size.headLen) fun hd h => ⟨h, rfl⟩) ?_
  rintro h _ ⟨hat, rfl⟩
  have h1 := hs.size hat
  have h2 := hat.le
  refine .ite (fun _ => .fail) fun hfc => ?_
  refine .bind (Tot.par (.E (Q := fun n r => n = h.size.len - h.size.headLen ∧ r = p + h.size.headLen) (contentLen_sane h1.1) ⟨rfl, rfl⟩)) ?_
  rintro _ _ ⟨rfl, rfl⟩
  refine .readUtf8 fun s _ hn hs' => ?_
  have hc : At F (p + h.size.headLen) (utf8 s) := by
    rcases hs' with h | h
    · rw [h]; exact ⟨by simpa using h2, rfl⟩
    · exact h
  obtain ⟨b1, b2, b3⟩ := box_at hs hat hc hn rfl
  have := hc.le
  exact ⟨by omega, _, Decidable.not_not.mp hfc, rfl, b1, b2, by rw [b3]; omega⟩

/-- An atom of the top level is well-formed. -/
def TopW : Kid Spec.Moov → Prop
  | .node _ m => m.WF
  | .raw b => b.fc ≠ cc 'm' 'o' 'o' 'v'

/-- Several movie atoms, or one. -/
theorem accepted_of {X : Bytes} {s : Str} {b : Box} {ks : List (Kid Spec.Moov)} (hX : F = X ++ (b.ser ++ serL (Kid.box (cc 'm' 'o' 'o' 'v') Moov.ser) ks))
    (hb : b.fc = cc 'f' 't' 'y' 'p') (hb' : b.body = utf8 s) (hbf : b.Fits)
    (hk : ∀ k ∈ ks, (k.box (cc 'm' 'o' 'o' 'v') Moov.ser).Fits ∧ TopW k)
    (hn : ∃ k ∈ ks, k.sel.isSome) : Accepted F X.length := by
  have hXt : F.take X.length = X := by rw [hX, List.take_left]
  refine ⟨by rw [hX, List.length_append]; omega, ?_⟩
  rw [hXt]
  have hbe : b = ⟨b.ext, cc 'f' 't' 'y' 'p', utf8 s⟩ := by rw [← hb, ← hb']
  -- a part without movie atoms
  have hraw : ∀ l : List (Kid Spec.Moov), (∀ k ∈ l, ¬ k.sel.isSome) → ∃ bs : List Box, l = bs.map Kid.raw := by
    intro l
    induction l with
    | nil => intro _; exact ⟨[], rfl⟩
    | cons k l ih =>
      intro h
      obtain ⟨bs, rfl⟩ := ih fun k hk => h k (List.mem_cons_of_mem _ hk)
      cases k with
      | raw b => exact ⟨b :: bs, rfl⟩
      | node ext m => exact absurd rfl (h _ List.mem_cons_self)
  -- the first movie atom
  have hfirst : ∀ l : List (Kid Spec.Moov), (∃ k ∈ l, k.sel.isSome) → ∃ pre ext m post, l = List.map Kid.raw pre ++ Kid.node ext m :: post := by
    intro l
    induction l with
    | nil => rintro ⟨k, hk, _⟩; cases hk
    | cons k l ih =>
      rintro ⟨x, hx, hs⟩
      cases k with
      | node ext m => exact ⟨[], ext, m, l, rfl⟩
      | raw b =>
        rcases List.mem_cons.mp hx with rfl | hx
        · cases hs
        · obtain ⟨pre, ext, m, post, rfl⟩ := ih ⟨x, hx, hs⟩
          exact ⟨b :: pre, ext, m, post, rfl⟩
  -- the last one
  have hlast : ∀ l : List (Kid Spec.Moov), (∃ k ∈ l, k.sel.isSome) → ∃ pre ext m post, l = pre ++ Kid.node ext m :: List.map Kid.raw post := by
    intro l
    induction l with
    | nil => rintro ⟨k, hk, _⟩; cases hk
    | cons k l ih =>
      intro h
      by_cases hl : ∃ k ∈ l, k.sel.isSome
      · obtain ⟨pre, ext, m, post, rfl⟩ := ih hl
        exact ⟨k :: pre, ext, m, post, rfl⟩
      · obtain ⟨x, hx, hs⟩ := h
        rcases List.mem_cons.mp hx with rfl | hx
        · obtain ⟨bs, rfl⟩ := hraw l fun k hk hs => hl ⟨k, hk, hs⟩
          cases x with
          | raw b => cases hs
          | node ext m => exact ⟨[], ext, m, bs, rfl⟩
        · exact absurd ⟨x, hx, hs⟩ hl
  obtain ⟨pre, ext, m, post, rfl⟩ := hfirst ks hn
  have hpre : ∀ b ∈ pre, b.Fits ∧ b.fc ≠ cc 'm' 'o' 'o' 'v' := fun b hb =>
    hk (.raw b) (List.mem_append_left _ (List.mem_map_of_mem hb))
  have hm := hk (.node ext m) (List.mem_append_right _ List.mem_cons_self)
  by_cases hp : ∃ k ∈ post, k.sel.isSome
  · obtain ⟨mid, ext2, m2, post, rfl⟩ := hlast post hp
    have hm2 := hk (.node ext2 m2) (by simp)
    refine .inr ⟨⟨⟨b.ext, s, pre, ext, m, []⟩, mid, ext2, m2, post⟩, ⟨⟨?_, hm.1, hm.2, hpre, by simp⟩, ?_, hm2.1, hm2.2, ?_⟩, ?_⟩
    · rw [File.ftypBox]; rw [hbe] at hbf; exact hbf
    · intro k hk'
      have := hk k (by simp [hk'])
      cases k <;> exact this
    · intro b hb; exact hk (.raw b) (by simp [hb])
    · rw [hX]
      congr 1
      rw [serL_append, serL_raw, serL_cons, serL_append, serL_cons, serL_raw]
      rw [hbe]
      simp only [Movies.ser, File.ser, List.append_assoc, serL, List.flatMap_nil, List.nil_append]
      rfl
  · obtain ⟨post, rfl⟩ := hraw post fun k hk hs => hp ⟨k, hk, hs⟩
    refine .inl ⟨⟨b.ext, s, pre, ext, m, post⟩, ⟨?_, hm.1, hm.2, hpre, ?_⟩, ?_⟩
    · rw [File.ftypBox]; rw [hbe] at hbf; exact hbf
    · intro b hb; exact hk (.raw b) (by simp [hb])
    · rw [hX]
      congr 1
      rw [serL_append, serL_raw, serL_cons, serL_raw]
      rw [hbe]
      simp only [File.ser, List.append_assoc]
      rfl

/-- The search ends at or behind the end of the input; if it ends there exactly, the input is well-formed. -/
theorem findTop_fills (hs : SaneB e F) {p : Nat} : Par e F p findTop fun _ q =>
    F.length ≤ q ∧ (q = F.length → Accepted F p) := by
  refine .bind (parseFtyp_fills hs) ?_
  rintro s q ⟨hq, b, hb, hb', hbf, hbat, rfl⟩
  have hF := hs.fit.len
  have hP := hs.fit.pos
  have hM := hs.max
  refine .bind (Q := fun n r => n = F.length - (p + b.ser.length) ∧ r = p + b.ser.length) ?_ ?_
  · intro n r h
    rw [remaining_at hs.fit hq] at h
    cases h
    exact ⟨rfl, rfl⟩
  rintro _ _ ⟨rfl, rfl⟩
  refine .bind (loop_fills (κ := Kid Spec.Moov) (box := Kid.box (cc 'm' 'o' 'o' 'v') Moov.ser)
    (M := fun (t : TopBounds) => t.moov.isSome) (N := fun (k : Kid Spec.Moov) => k.sel.isSome)
    (W := TopW) hs (lim := F.length - (p + b.ser.length)) rfl (by omega) (fun s h p hat => ?_) {} 0 _) fun t q ht => ?_
  · refine .ite (fun hfc => ?_) fun hfc => .ite (fun _ => ?_) fun _ => ?_
    · refine .mono ((findMoov_fills hs).child (box := Kid.box (cc 'm' 'o' 'o' 'v') Moov.ser) (W := TopW) (N := fun (k : Kid Spec.Moov) => k.sel.isSome) hs hat (g := fun a => { s with moov := some a }) ?_) fun _ q hq => ⟨hq.le, fun a b => ?_⟩
      · rintro c ⟨a, rfl, ha⟩
        exact ⟨.node h.size.ext a, ha, by rw [hfc]; rfl, rfl⟩
      · obtain ⟨k, a, b, c, d, hk⟩ := hq.fill a b
        exact ⟨k, a, b, c, d, fun _ => .inr hk⟩
    · intro s' q hm
      obtain ⟨a, q', h1, h2⟩ := P.bind_inv hm
      obtain ⟨rfl, rfl⟩ := P.pure_inv h2
      have := (findLeaf_fills hs).child (τ := AtomBounds) (σ := TopBounds) (box := Kid.box (cc 'm' 'o' 'o' 'v') Moov.ser) (N := fun _ => True) (W := TopW) hs hat (g := fun a => { s with mdat := some a })
        (fun c _ => ⟨.raw ⟨h.size.ext, h.fourcc, c⟩, hfc, rfl, trivial⟩) _ _ hm
      refine ⟨this.le, fun a b => ?_⟩
      obtain ⟨k, a, b, c, d, -⟩ := this.fill a b
      exact ⟨k, a, b, c, d, .inl⟩
    · intro s' q hm
      obtain ⟨a, q', h1, h2⟩ := P.bind_inv hm
      obtain ⟨rfl, rfl⟩ := P.pure_inv h2
      have := skip_fills (box := Kid.box (cc 'm' 'o' 'o' 'v') Moov.ser) (N := fun _ => True) (W := TopW) hs s hat
        (fun c => ⟨.raw ⟨h.size.ext, h.fourcc, c⟩, hfc, rfl, trivial⟩) _ _ hm
      refine ⟨this.le, fun a b => ?_⟩
      obtain ⟨k, a, b, c, d, -⟩ := this.fill a b
      exact ⟨k, a, b, c, d, .inl⟩
  · have h1 := ht.le
    cases hm : t.moov with
    | none => exact .fail
    | some x =>
      refine .pure ⟨by omega, fun hq' => ?_⟩
      obtain ⟨_, hc, hn, ks, rfl, h2, h3⟩ := ht.fill (by omega) (by omega)
      have hat := At_append.mpr ⟨hbat, hc⟩
      obtain ⟨A, B, hFe, hA⟩ := hat.elim
      subst hA
      have hB : B = [] := by
        have := congrArg List.length hFe
        simp only [List.length_append] at this
        exact List.eq_nil_of_length_eq_zero (by omega)
      subst hB
      rw [List.append_nil] at hFe
      refine accepted_of hFe hb hb' hbf h2 ?_
      rcases h3 (by rw [hm]; rfl) with h | h
      · cases h
      · exact h

end

end Mp4
