import Verif.Proof.Accept
import Verif.Proof.Unique
/-
Arbitrary input: the items that are read are those of a well-formed movie atom.
-/
namespace Mp4
open Spec

section
variable {e : Env} {F : Bytes}

/-- The states of a loop over `ks`. -/
def Steps {σ κ : Type} (S : σ → κ → σ → Prop) : σ → List κ → σ → Prop
  | s, [], s' => s' = s
  | s, k :: ks, s' => ∃ m, S s k m ∧ Steps S m ks s'

/-- A loop over children, with what each of them does to the state. -/
theorem walk_steps {σ κ : Type} {limit : E Nat} {handle : σ → Head → P σ} {lim : Nat} (hs : SaneB e F) (hl : limit e = .ok lim)
    (hlim : lim < 2^63) {box : κ → Box} {W : κ → Prop} {S : σ → κ → σ → Prop}
    (hh : ∀ s h p, HeadOf F p h → Par e F (p + h.size.headLen) (handle s h) fun s' q =>
      Child F box W p h.size.len q fun k => S s k s') :
    ∀ f s parsed p, Par e F p (walk limit handle f s parsed) fun s' q =>
      Fills F p (lim - parsed) (fun c => ∃ ks : List κ, c = serL box ks ∧ (∀ k ∈ ks, (box k).Fits ∧ W k) ∧ Steps S s ks s') q := by
  intro f
  induction f with
  | zero => intro s parsed p a q h; cases h
  | succ f ih =>
    intro s parsed p
    rw [walk]
    refine .bind (Tot.par (.E (Q := fun n q => lim = n ∧ p = q) hl ⟨rfl, rfl⟩)) ?_
    rintro _ _ ⟨rfl, rfl⟩
    refine .ite (fun hlt => ?_) fun hge => .pure ?_
    · refine .bind (.parseHead (Q := fun hd q => HeadOf F p hd ∧ q = p + hd.size.headLen) fun hd h => ⟨h, rfl⟩) ?_
      rintro hd _ ⟨hat, rfl⟩
      have hsz := hs.size hat
      refine .bind (hh s hd p hat) fun s' q hq => ?_
      refine .bind (Tot.par (.addU (Q := fun n r => n = parsed + hd.size.len ∧ q = r) (by omega) ⟨rfl, rfl⟩)) ?_
      rintro _ _ ⟨rfl, rfl⟩
      refine (ih s' (parsed + hd.size.len) q).mono fun s2 r hr => ?_
      have hq1 := hq.le
      have hr1 := hr.le
      refine ⟨by omega, fun he hle => ?_⟩
      obtain ⟨c, hc, hcl, ks, rfl, hks, hS⟩ := hr.fill (by omega) hle
      obtain ⟨k, hW, hfit, hk, hkl, hN⟩ := hq.fill (by omega) (by omega)
      refine ⟨serL box (k :: ks), ?_, ?_, k :: ks, rfl, ?_, _, hN, hS⟩
      · rw [serL_cons]
        exact At_append.mpr ⟨hk, by rw [hkl, show p + hd.size.len = q by omega]; exact hc⟩
      · rw [serL_cons, List.length_append]; omega
      · intro x hx
        rcases List.mem_cons.mp hx with rfl | hx
        · exact ⟨hfit, hW⟩
        · exact hks x hx
    · refine ⟨by omega, fun he hle => ⟨[], ⟨by simpa using hle, rfl⟩, ?_, [], rfl, by simp, rfl⟩⟩
      simp; omega

/-- A container that is read. -/
theorem parse_fills {σ κ : Type} {handle : σ → Head → P σ} (hs : SaneB e F) (box : κ → Box) (W : κ → Prop) {s : σ}
    {C : Bytes → Prop} (hC : ∀ ks : List κ, (∀ k ∈ ks, (box k).Fits ∧ W k) → C (serL box ks))
    (hh : ∀ s h p, HeadOf F p h → Par e F (p + h.size.headLen) (handle s h) fun _ q =>
      Child F box W p h.size.len q fun _ => True) {h : Head} {p : Nat} (hat : HeadOf F p h) :
    Par e F (p + h.size.headLen) (loop h.size.contentLen handle s 0) fun _ q =>
      Fills F (p + h.size.headLen) (h.size.len - h.size.headLen) C q := by
  have h1 := hs.size hat
  refine (loop_fills (M := fun _ => False) (N := fun _ => True) hs (contentLen_sane h1.1) (by omega)
    (fun s h p hat => (hh s h p hat).mono fun _ q hq => ⟨hq.le, fun a b => by
      obtain ⟨k, a, b, c, d, -⟩ := hq.fill a b
      exact ⟨k, a, b, c, d, fun h => h.elim⟩⟩) _ 0 _).mono fun _ q hq => ?_
  refine ⟨hq.le, fun a b => ?_⟩
  obtain ⟨c, hc, hn, ks, rfl, h2, -⟩ := hq.fill a b
  exact ⟨_, hc, hn, hC ks h2⟩

/-! ### Items -/

theorem text_fills (hs : SaneB e F) {h : Head} {p : Nat} (hat : HeadOf F p h) {f : Str → ItemSt} {W N : Part → Prop}
    (hk : ∀ (fl : Bytes) (s : Str), fl.length = 3 → ∃ k, W k ∧ k.box = ⟨h.size.ext, h.fourcc, 0 :: fl ++ utf8 s⟩ ∧ N k) :
    Par e F (p + h.size.headLen) (do
      let (version, _) ← Mp4.parseFullHead
      if version ≠ 0 then Mp4.fail (.unknownVersion version)
      else do
        let n ← h.size.contentLen.p
        let n ← (subU n 4).p
        let m ← Mp4.readUtf8 n
        Pure.pure (f m)) fun _ q => Child F Part.box W p h.size.len q N := by
  refine .bind (.parseFullHead (Q := fun x q => q = p + h.size.headLen + 4 ∧ x.2.length = 3 ∧
    At F (p + h.size.headLen) (x.1 :: x.2)) fun v fl h1 h2 => ⟨rfl, h1, h2⟩) ?_
  rintro ⟨v, fl⟩ _ ⟨rfl, h1, h2⟩
  dsimp only at h1 h2 ⊢
  refine .ite (fun _ => .fail) fun hv => ?_
  have hv : v = 0 := Decidable.not_not.mp hv
  subst hv
  refine .bind (.E (Q := fun n q => q = p + h.size.headLen + 4 ∧ h.size.contentLen e = .ok n) fun _ h => ⟨rfl, h⟩) ?_
  rintro n _ ⟨rfl, h3⟩
  refine .bind (.E (Q := fun m q => q = p + h.size.headLen + 4 ∧ subU n 4 e = .ok m) fun _ h => ⟨rfl, h⟩) ?_
  rintro m _ ⟨rfl, h4⟩
  refine .bind (.readUtf8 (Q := fun _ q => Child F Part.box W p h.size.len q N) fun s h5 h6 h7 => ?_) fun _ _ hq => .pure hq
  have hl := content_sub (by omega) hat.lt h3 h4 h5
  refine ⟨by omega, fun _ hle => ?_⟩
  have h8 : At F (p + h.size.headLen + 4) (utf8 s) := by
    rcases h7 with h | h
    · rw [h]; exact ⟨by simp; omega, rfl⟩
    · exact h
  obtain ⟨k, k1, k2, k3⟩ := hk fl s h1
  obtain ⟨b1, b2, b3⟩ := box_at hs hat (c := 0 :: fl ++ utf8 s) (At_append.mpr ⟨h2, by
    rw [List.length_cons, h1]; exact h8⟩) (by rw [List.length_append, List.length_cons, h1]; omega) k2
  exact ⟨k, k1, b1, b2, b3, k3⟩

theorem value_fills (hs : SaneB e F) {h : Head} {p : Nat} (hat : HeadOf F p h) {f : Data → ItemSt} {W N : Part → Prop}
    (hk : ∀ (code : Nat) (loc payload : Bytes) (d : Data), loc.length = 4 → ValueEnc code payload d →
      ∃ k, W k ∧ k.box = ⟨h.size.ext, h.fourcc, be32 code ++ loc ++ payload⟩ ∧ N k) :
    Par e F (p + h.size.headLen) (do
      let (version, flags) ← Mp4.parseFullHead
      if version ≠ 0 then Mp4.fail (.unknownVersion version)
      else do
        let datatype := beNat flags
        seekCur 4
        let n ← h.size.contentLen.p
        let n ← (subU n 8).p
        let d ← Data.parse datatype n
        Pure.pure (f d)) fun _ q => Child F Part.box W p h.size.len q N := by
  refine .bind (.parseFullHead (Q := fun x q => q = p + h.size.headLen + 4 ∧ x.2.length = 3 ∧
    At F (p + h.size.headLen) (x.1 :: x.2)) fun v fl h1 h2 => ⟨rfl, h1, h2⟩) ?_
  rintro ⟨v, fl⟩ _ ⟨rfl, h1, h2⟩
  dsimp only at h1 h2 ⊢
  refine .ite (fun _ => .fail) fun hv => ?_
  have hv : v = 0 := Decidable.not_not.mp hv
  subst hv
  refine .bind (Q := fun _ q => q = p + h.size.headLen + 4 + 4) (Tot.par (.seekCur fun q hq _ => by omega)) ?_
  rintro _ _ rfl
  refine .bind (.E (Q := fun n q => q = p + h.size.headLen + 4 + 4 ∧ h.size.contentLen e = .ok n) fun _ h => ⟨rfl, h⟩) ?_
  rintro n _ ⟨rfl, h3⟩
  refine .bind (.E (Q := fun m q => q = p + h.size.headLen + 4 + 4 ∧ subU n 8 e = .ok m) fun _ h => ⟨rfl, h⟩) ?_
  rintro m _ ⟨rfl, h4⟩
  refine .bind (.dataParse (Q := fun _ q => Child F Part.box W p h.size.len q N) fun d b henc h5 h6 h7 => ?_) fun _ _ hq => .pure hq
  have hl := content_sub (by omega) hat.lt h3 h4 h5
  refine ⟨by omega, fun _ hle => ?_⟩
  have h8 : At F (p + h.size.headLen + 4 + 4) b := by
    rcases h7 with h | h
    · rw [h]; exact ⟨by simp; omega, rfl⟩
    · exact h
  obtain ⟨loc, hloc, h9⟩ := At_before h8
  have hcode : be32 (beNat fl) = 0 :: fl := by
    have := be32_beNat (b := 0 :: fl) (by simp [h1])
    simpa [beNat] using this
  obtain ⟨k, k1, k2, k3⟩ := hk (beNat fl) loc b d hloc henc
  obtain ⟨b1, b2, b3⟩ := box_at hs hat (c := be32 (beNat fl) ++ loc ++ b) (by
    rw [List.append_assoc, hcode]
    exact At_append.mpr ⟨h2, by rw [List.length_cons, h1]; exact h9⟩)
    (by simp only [List.length_append, be32_length, hloc]; omega) k2
  exact ⟨k, k1, b1, b2, b3, k3⟩

/-- The part of `Part.WF` that is not about the size. -/
def PartW (p : Part) : Prop := p.box.Fits → p.WF

theorem itemHandle_fills (hs : SaneB e F) {s : ItemSt} {h : Head} {p : Nat} (hat : HeadOf F p h) :
    Par e F (p + h.size.headLen) (itemHandle s h) fun s' q =>
      Child F Part.box PartW p h.size.len q fun k => s'.data ≠ [] → s.data ≠ [] ∨ k.value?.isSome := by
  have weak : ∀ {m : P ItemSt}, (∀ s' q, m e F (p + h.size.headLen) = .ok (s', q) → s'.data = s.data) →
      Par e F (p + h.size.headLen) m (fun _ q => Child F Part.box PartW p h.size.len q fun _ => True) →
      Par e F (p + h.size.headLen) m fun s' q =>
        Child F Part.box PartW p h.size.len q fun k => s'.data ≠ [] → s.data ≠ [] ∨ k.value?.isSome := by
    intro m h1 h2 s' q hm
    refine ⟨(h2 s' q hm).le, fun a b => ?_⟩
    obtain ⟨k, a, b, c, d, -⟩ := (h2 s' q hm).fill a b
    exact ⟨k, a, b, c, d, fun h => .inl (by rw [← h1 s' q hm]; exact h)⟩
  unfold itemHandle
  refine .ite (fun hd => ?_) fun hd1 => .ite (fun hd => ?_) fun hd2 => .ite (fun hd => ?_) fun hd3 => ?_
  · refine (value_fills (W := PartW) (N := fun k => k.value?.isSome) hs hat fun code loc payload d h1 h2 =>
      ⟨.data h.size.ext code loc payload d, fun hf => ⟨hf, h1, h2⟩, by rw [hd]; rfl, rfl⟩).mono fun _ q hq => ⟨hq.le, fun a b => ?_⟩
    obtain ⟨k, a, b, c, d, hk⟩ := hq.fill a b
    exact ⟨k, a, b, c, d, fun _ => .inr hk⟩
  · refine weak ?_ (text_fills hs hat fun fl t h1 => ⟨.mean h.size.ext fl t, fun hf => ⟨hf, h1⟩, by rw [hd]; rfl, trivial⟩)
    exact Par.text (Q := fun s' _ => s'.data = s.data) hat fun _ _ _ _ => rfl
  · refine weak ?_ (text_fills hs hat fun fl t h1 => ⟨.name h.size.ext fl t, fun hf => ⟨hf, h1⟩, by rw [hd]; rfl, trivial⟩)
    exact Par.text (Q := fun s' _ => s'.data = s.data) hat fun _ _ _ _ => rfl
  · refine weak ?_ (skip_fills hs s hat fun c => ⟨.other ⟨h.size.ext, h.fourcc, c⟩, fun hf => ⟨hf, hd1, hd2, hd3⟩, rfl, trivial⟩)
    exact Par.bind (Q := fun _ _ => True) (R := fun (s' : ItemSt) _ => s'.data = s.data) .top fun _ _ _ => .pure rfl

theorem parseItem_fills (hs : SaneB e F) {fc : Fourcc} {p len : Nat} (hl : len < 2^63) :
    Par e F p (parseItem fc len) fun _ q => Fills F p len (fun c => ∃ parts : List Part, c = serL Part.box parts ∧
      (∀ x ∈ parts, x.WF) ∧ parts.filterMap Part.value? ≠ []) q := by
  refine .bind (loop_fills (M := fun (s : ItemSt) => s.data ≠ []) (N := fun (k : Part) => k.value?.isSome) (W := PartW) hs
    (lim := len) rfl hl (fun s h p hat => itemHandle_fills hs hat) {} 0 p) fun s q hq => ?_
  refine .ite (fun _ => .fail) fun hne => .pure ⟨hq.le, fun a b => ?_⟩
  obtain ⟨_, hc, hn, ks, rfl, h2, h3⟩ := hq.fill a b
  refine ⟨_, hc, hn, ks, rfl, fun x hx => (h2 x hx).2 (h2 x hx).1, fun hnil => ?_⟩
  rcases h3 (by simpa using hne) with h | ⟨k, hk, hv⟩
  · exact h rfl
  · obtain ⟨v, hv⟩ := Option.isSome_iff_exists.mp hv
    have : v ∈ ks.filterMap Part.value? := List.mem_filterMap.mpr ⟨k, hk, hv⟩
    rw [hnil] at this
    cases this

theorem parseIlst_fills (hs : SaneB e F) : FindsAll e F parseIlst fun c => ∃ items, IlstBody c items := by
  refine fun _ _ => parse_fills hs Entry.box (fun x => x.box.Fits → x.WF) (C := fun c => ∃ items, IlstBody c items)
    (fun ks hk => ⟨_, ks, fun x hx => (hk x hx).2 (hk x hx).1, rfl, rfl⟩) fun s h p hat => .ite (fun hfc => ?_) fun hfc => ?_
  · exact skip_fills hs _ hat fun c => ⟨.free h.size.ext c, fun hf => ⟨hf, trivial⟩, by rw [hfc]; rfl, trivial⟩
  · have h1 := hs.size hat
    refine .bind (Tot.par (.E (Q := fun n r => n = h.size.len - h.size.headLen ∧ r = p + h.size.headLen) (contentLen_sane h1.1) ⟨rfl, rfl⟩)) ?_
    rintro _ _ ⟨rfl, rfl⟩
    refine .bind (parseItem_fills hs (by omega)) fun a q hq => .pure ⟨by have := hq.le; omega, fun hq1 hq2 => ?_⟩
    obtain ⟨_, hc, hn, parts, rfl, hw, hv⟩ := hq.fill (by omega) hq2
    obtain ⟨b1, b2, b3⟩ := box_at hs hat hc hn rfl
    exact ⟨.item h.size.ext h.fourcc parts, fun hf => ⟨hf, hfc, hw, hv⟩, b1, b2, b3, trivial⟩

/-- If everything selected means something, there is a last meaning. -/
theorem lastOf_some {κ β γ : Type} {sel : κ → Option β} {R : β → γ → Prop} {ks : List κ}
    (h : ∀ k ∈ ks, ∀ b, sel k = some b → ∃ g, R b g) : ∃ r, LastOf sel R ks r := by
  cases hl : (ks.filterMap sel).getLast? with
  | none => exact ⟨none, h, by rw [hl]⟩
  | some b =>
    obtain ⟨k, hk, hb⟩ := List.mem_filterMap.mp (List.mem_of_getLast? hl)
    obtain ⟨g, hg⟩ := h k hk b hb
    exact ⟨some g, h, by rw [hl]; exact ⟨g, rfl, hg⟩⟩

theorem parseMeta_fills (hs : SaneB e F) : FindsAll e F parseMeta fun c => ∃ s : Meta, c = s.ser ∧ s.WF ∧ ∃ r, MetaItems s r := by
  intro h p hat
  have h1 := hs.size hat
  refine .bind (.parseFullHead (Q := fun x q => q = p + h.size.headLen + 4 ∧ x.2.length = 3 ∧ At F (p + h.size.headLen) (x.1 :: x.2))
    fun v fl h1 h2 => ⟨rfl, h1, h2⟩) ?_
  rintro ⟨v, fl⟩ _ ⟨rfl, hfl, hat4⟩
  dsimp only at hfl hat4 ⊢
  refine .ite (fun _ => .fail) fun hv => ?_
  have hv : v = 0 := Decidable.not_not.mp hv
  subst hv
  have h4 := hat4.le
  rw [List.length_cons, hfl] at h4
  refine (loop_fills (M := fun _ => False) (N := fun _ => True) (box := id)
    (W := fun b : Box => b.fc = cc 'i' 'l' 's' 't' → ∃ items, IlstBody b.body items) hs (contentLen_sane h1.1) (by omega)
    (fun s h p hat => ?_) _ 4 _).mono fun _ q hq => ?_
  · refine .ite (fun hfc => ?_) fun hfc => ?_
    · exact (parseIlst_fills hs).child hs hat fun c hc => ⟨⟨h.size.ext, h.fourcc, c⟩, fun _ => hc, rfl, fun h => h.elim⟩
    · exact skip_fills hs _ hat fun c => ⟨⟨h.size.ext, h.fourcc, c⟩, fun hc => absurd hc hfc, rfl, fun h => h.elim⟩
  · have hq1 := hq.le
    refine ⟨by omega, fun a b => ?_⟩
    obtain ⟨_, hc, hn, ks, rfl, h2, -⟩ := hq.fill (by omega) b
    refine ⟨Meta.ser ⟨fl, ks⟩, ?_, ?_, _, rfl, ⟨hfl, fun b hb => (h2 b hb).1⟩, ?_⟩
    · exact At_append.mpr ⟨hat4, by rw [List.length_cons, hfl]; exact hc⟩
    · rw [Meta.ser, List.length_append, hn, List.length_cons, hfl]; omega
    · refine lastOf_some fun b hb x hx => ?_
      unfold Box.sel at hx
      split at hx
      · rename_i hfc
        cases hx
        exact (h2 b hb).2 hfc
      · cases hx

/-- A container that interprets one kind of child. -/
theorem parse_one_fills (hs : SaneB e F) {α τ : Type} {parse : Size → P τ} {fc : Fourcc} {ser : α → Bytes} {R : α → Prop}
    (hf : FindsAll e F parse fun c => ∃ a, c = ser a ∧ R a) :
    FindsAll e F (fun size =>
      loop size.contentLen (fun s h => if h.fourcc = fc then do let a ← parse h.size; pure (some a) else do skipContent h; pure s) none 0)
      (fun c => ∃ ks : List (Kid α), c = serL (Kid.box fc ser) ks ∧ ∀ k ∈ ks, Kid.WF fc ser R k) := by
  refine fun _ _ => parse_fills hs (Kid.box fc ser) (fun k => match k with
    | .node _ a => R a
    | .raw b => b.fc ≠ fc) (C := fun c => ∃ ks : List (Kid α), c = serL (Kid.box fc ser) ks ∧ ∀ k ∈ ks, Kid.WF fc ser R k)
      (fun ks hk => ⟨ks, rfl, hk⟩) fun s h p hat => .ite (fun hfc => ?_) fun hfc => ?_
  · refine hf.child hs hat ?_
    rintro c ⟨a, rfl, ha⟩
    exact ⟨.node h.size.ext a, ha, by rw [hfc]; rfl, trivial⟩
  · exact skip_fills hs _ hat fun c => ⟨.raw ⟨h.size.ext, h.fourcc, c⟩, hfc, rfl, trivial⟩

theorem parseUdta_fills (hs : SaneB e F) :
    FindsAll e F parseUdta fun c => ∃ s : Udta, c = s.ser ∧ s.WF ∧ ∃ r, LastOf Kid.sel MetaItems s r := by
  intro h p hat
  refine (parse_one_fills (α := Meta) (ser := Meta.ser) (R := fun m => m.WF ∧ ∃ r, MetaItems m r) hs (parseMeta_fills hs) h p hat).mono
    fun _ q hq => ⟨hq.le, fun a b => ?_⟩
  obtain ⟨_, hc, hn, ks, rfl, h2⟩ := hq.fill a b
  refine ⟨_, hc, hn, ks, rfl, fun k hk => ?_, lastOf_some fun k hk m hm => ?_⟩
  · have := h2 k hk
    cases k with
    | node ext m => exact ⟨this.1, this.2.1⟩
    | raw b => exact this
  · have := h2 k hk
    cases k with
    | node ext x => cases hm; exact this.2.2
    | raw b => cases hm

/-! ### Tracks and the movie header -/

/-- Reading ends at the end of the atom. -/
theorem toEnd_fills (hs : SaneB e F) {τ : Type} {m : AtomBounds → P τ} {h : Head} {p : Nat} (hat : HeadOf F p h)
    (hm : Par e F (p + h.size.headLen) (m ⟨p, h.size⟩) fun _ q => q = p + h.size.len) :
    Par e F (p + h.size.headLen) (do let b ← findBounds h.size; m b) fun _ q =>
      Fills F (p + h.size.headLen) (h.size.len - h.size.headLen) (fun _ => True) q := by
  refine .bind (Tot.par (.findBounds (Q := fun b q => b = ⟨p, h.size⟩ ∧ q = p + h.size.headLen) ⟨rfl, rfl⟩)) ?_
  rintro _ _ ⟨rfl, rfl⟩
  exact hm.mono fun _ q hq => hq ▸ fills_end hs hat

theorem sane_true (hs : SaneB e F) : Sane True e F := ⟨hs, fun h => absurd trivial h, fun _ h => absurd trivial h⟩

theorem parseMp4a_fills (hs : SaneB e F) : FindsAll e F parseMp4a fun _ => True := by
  intro h p hat
  obtain ⟨hz1, hz2⟩ := hs.size hat
  have hle := hat.le
  have hF := hs.fit.len
  refine toEnd_fills (m := fun bounds => do
    seekCur 28
    let head ← parseHead
    if head.fourcc ≠ ELEMENTARY_STREAM_DESCRIPTION then
      fail (.atomNotFound ELEMENTARY_STREAM_DESCRIPTION)
    else do
      let info ← parseEsds {} head.size
      seekToEnd bounds
      pure info) hs hat ?_
  refine .bind .top fun _ _ _ => .bind .top fun hd _ _ => .ite (fun _ => .fail) fun _ => ?_
  refine .bind (Tot.par (parseEsds_tot (sane_true hs) (fun _ => trivial) _ _ _)) fun _ q3 h3 => ?_
  exact .bind (Tot.par (.seekToEnd hs.max (by show p + h.size.len < _; omega) h3.2 fun _ _ => trivial)) fun _ r hr => .pure hr

theorem parseMvhd_fills (hs : SaneB e F) : FindsAll e F parseMvhd fun _ => True := by
  intro h p hat
  obtain ⟨hz1, hz2⟩ := hs.size hat
  have hle := hat.le
  have hF := hs.fit.len
  have hfin : ∀ (d q : Nat), q ≤ F.length → Par e F q
      (do Mp4.seekToEnd ⟨p, h.size⟩; Pure.pure d : P Nat) fun _ r => r = p + h.size.len := fun d q hq =>
    .bind (Tot.par (.seekToEnd hs.max (by show p + h.size.len < _; omega) (by omega) fun _ _ => trivial)) fun _ r hr => .pure hr
  refine toEnd_fills (m := fun bounds => do
    let (version, _) ← parseFullHead
    if version = 0 then do
      seekCur 8
      let timescale ← readU32
      let duration ← readU32
      let nanos ← (mulU duration 1000000000).p
      let d ← (divU nanos timescale).p
      seekToEnd bounds
      pure d
    else if version = 1 then do
      seekCur 16
      let timescale ← readU32
      let duration ← readU64
      let nanos ← (mulU duration 1000000000).p
      let d ← (divU nanos timescale).p
      seekToEnd bounds
      pure d
    else fail (.unknownVersion version)) hs hat ?_
  refine .bind .top ?_
  rintro ⟨v, fl⟩ _ -
  refine .ite (fun hv => ?_) fun hv => .ite (fun hv1 => ?_) fun _ => .fail
  · refine .bind .top fun _ q0 _ => .bind .top fun ts q1 _ => ?_
    refine .bind (Tot.par (.readU32 (Q := fun v q => q ≤ F.length) fun v h1 h2 => by have := h2.le; rwa [be32_length] at this)) ?_
    refine fun du q hq => .bind (.E (Q := fun _ r => q = r) fun _ _ => rfl) ?_
    rintro n _ rfl
    refine .bind (.E (Q := fun _ r => q = r) fun _ _ => rfl) ?_
    rintro n _ rfl
    exact hfin _ _ hq
  · refine .bind .top fun _ q0 _ => .bind .top fun ts q1 _ => ?_
    refine .bind (Tot.par (.readU64 (Q := fun v q => q ≤ F.length) fun v h1 h2 => by have := h2.le; rwa [be64_length] at this)) ?_
    refine fun du q hq => .bind (.E (Q := fun _ r => q = r) fun _ _ => rfl) ?_
    rintro n _ rfl
    refine .bind (.E (Q := fun _ r => q = r) fun _ _ => rfl) ?_
    rintro n _ rfl
    exact hfin _ _ hq

theorem parseStsd_fills (hs : SaneB e F) : FindsAll e F parseStsd fun _ => True := by
  intro h p hat
  have h1 := hs.size hat
  refine .bind (.parseFullHead (Q := fun x q => q = p + h.size.headLen + 4) fun v fl h1 h2 => rfl) ?_
  rintro ⟨v, fl⟩ _ rfl
  refine .ite (fun _ => .fail) fun hv => ?_
  refine .bind (Q := fun _ q => q = p + h.size.headLen + 8) (Tot.par (.seekCur fun q hq _ => by omega)) ?_
  rintro _ _ rfl
  refine (loop_fills (M := fun _ => False) (N := fun _ => True) (box := id) (W := fun _ => True) hs (contentLen_sane h1.1) (by omega)
    (fun s h p hat => ?_) _ 8 _).mono fun _ q hq => ?_
  · have key : ∀ c, ∃ k : Box, True ∧ id k = ⟨h.size.ext, h.fourcc, c⟩ ∧ (False → False ∨ True) := fun c => ⟨_, trivial, rfl, fun h => h.elim⟩
    exact .ite (fun _ => (parseMp4a_fills hs).child hs hat fun c _ => key c) fun _ => skip_fills hs _ hat key
  · have hq1 := hq.le
    refine ⟨by omega, fun a b => ?_⟩
    exact (fills_end hs hat).fill (by omega) (by omega) |>.imp fun c hc => hc

theorem parseStbl_fills (hs : SaneB e F) : FindsAll e F parseStbl fun c => ∃ s : Stbl, c = s.ser ∧ s.WF := by
  refine fun _ _ => parse_fills hs id (fun _ => True) (C := fun c => ∃ s : Stbl, c = s.ser ∧ s.WF) (fun ks hk => ⟨ks, rfl, fun b hb => (hk b hb).1⟩)
    fun s h p hat => ?_
  have key : ∀ c, ∃ k : Box, True ∧ id k = ⟨h.size.ext, h.fourcc, c⟩ ∧ True := fun c => ⟨_, trivial, rfl, trivial⟩
  exact .ite (fun _ => (parseStsd_fills hs).child hs hat fun c _ => key c) fun _ => skip_fills hs _ hat key

theorem parseMinf_fills (hs : SaneB e F) : FindsAll e F parseMinf fun c => ∃ s : Minf, c = s.ser ∧ s.WF :=
  parse_one_fills hs (parseStbl_fills hs)
theorem parseMdia_fills (hs : SaneB e F) : FindsAll e F parseMdia fun c => ∃ s : Spec.Mdia, c = s.ser ∧ s.WF :=
  parse_one_fills hs (parseMinf_fills hs)
theorem parseTrak_fills (hs : SaneB e F) : FindsAll e F parseTrak fun c => ∃ s : Spec.Trak, c = s.ser ∧ s.WF :=
  parse_one_fills hs (parseMdia_fills hs)

/-! ### The movie atom -/

/-- What a child of the movie atom does to the items. -/
def MoovStep (s : Mp4.Moov) (k : MoovKid) (s' : Mp4.Moov) : Prop :=
  match k.udta? with
  | some u => ∃ r, LastOf Kid.sel MetaItems u r ∧ s'.udta = some (r.map (Option.map group))
  | none => s'.udta = s.udta

theorem moovHandle_fills (hs : SaneB e F) {s : Mp4.Moov} {h : Head} {p : Nat} (hat : HeadOf F p h) :
    Par e F (p + h.size.headLen) (moovHandle s h) fun s' q =>
      Child F MoovKid.box (fun k => k.box.Fits → k.WF) p h.size.len q fun k => MoovStep s k s' := by
  have h1 := hs.size hat
  have weak : ∀ {τ : Type} {parse : Size → P τ} {C : Bytes → Prop} {g : τ → Mp4.Moov}, FindsAll e F parse C → (∀ a, (g a).udta = s.udta) →
      (∀ c, C c → ∃ k : MoovKid, (k.box.Fits → k.WF) ∧ k.box = ⟨h.size.ext, h.fourcc, c⟩ ∧ k.udta? = none) →
      Par e F (p + h.size.headLen) (do let a ← parse h.size; Pure.pure (g a)) fun s' q =>
        Child F MoovKid.box (fun k => k.box.Fits → k.WF) p h.size.len q fun k => MoovStep s k s' := by
    intro τ parse C g hf hg hk s' q hm
    have hch := hf.child hs hat (g := g) hk s' q hm
    obtain ⟨a, q1, hm1, hm2⟩ := P.bind_inv hm
    obtain ⟨rfl, rfl⟩ := P.pure_inv hm2
    refine ⟨hch.le, fun a b => ?_⟩
    obtain ⟨k, a, b, c, d, hu⟩ := hch.fill a b
    exact ⟨k, a, b, c, d, by rw [MoovStep, hu]; exact hg _⟩
  unfold moovHandle
  refine .ite (fun hfc => ?_) fun hfc1 => .ite (fun hfc => ?_) fun hfc2 => .ite (fun hfc => ?_) fun hfc3 => ?_
  · exact weak (parseMvhd_fills hs) (fun _ => rfl) fun c _ => ⟨.raw ⟨h.size.ext, h.fourcc, c⟩, fun hf =>
      ⟨hf, fun hx => absurd (hfc.symm.trans hx) (by decide), fun hx => absurd (hfc.symm.trans hx) (by decide)⟩, rfl, rfl⟩
  · refine weak (parseTrak_fills hs) (fun _ => rfl) ?_
    rintro c ⟨t, rfl, ht⟩
    exact ⟨.trak h.size.ext t, fun hf => (⟨hf, ht⟩ : MoovKid.WF (.trak h.size.ext t)), by rw [hfc]; rfl, rfl⟩
  · refine .bind (Q := fun a q => parseUdta h.size e F (p + h.size.headLen) = .ok (a, q) ∧ Fills F (p + h.size.headLen)
      (h.size.len - h.size.headLen) (fun c => ∃ s : Udta, c = s.ser ∧ s.WF ∧ ∃ r, LastOf Kid.sel MetaItems s r) q)
      (fun a q hm => ⟨hm, parseUdta_fills hs h p hat a q hm⟩) ?_
    rintro a q ⟨hm, hq⟩
    refine .pure ⟨by have := hq.le; omega, fun hq1 hq2 => ?_⟩
    obtain ⟨_, hc, hn, u, rfl, hw, r, hr⟩ := hq.fill (by omega) hq2
    obtain ⟨b1, b2, b3⟩ := box_at hs hat hc hn rfl
    refine ⟨.udta h.size.ext u, fun hf => ⟨hf, hw⟩, by rw [hfc] at b1; exact b1, by rw [hfc] at b2; exact b2,
      by rw [hfc] at b3; exact b3, r, hr, ?_⟩
    have := parseUdta_at hs.fit b2 rfl hw hr
    have hsz : (⟨h.size.ext, h.fourcc, u.ser⟩ : Box).size = h.size := by
      show (⟨_, _⟩ : Size) = ⟨h.size.ext, h.size.len⟩
      rw [← b3]; exact congrArg _ (Box.ser_length _).symm
    rw [hsz, show (⟨h.size.ext, h.fourcc, u.ser⟩ : Box).headLen = h.size.headLen from rfl, hm] at this
    injection this with this
    injection this with this
    exact congrArg some this
  · intro s' q hm
    have hch := skip_fills (box := MoovKid.box) (W := fun k => k.box.Fits → k.WF) (N := fun k => k.udta? = none) hs s hat
      (fun c => ⟨.raw ⟨h.size.ext, h.fourcc, c⟩, fun hf => ⟨hf, hfc2, hfc3⟩, rfl, rfl⟩) s' q hm
    obtain ⟨a, q1, hm1, hm2⟩ := P.bind_inv hm
    obtain ⟨rfl, rfl⟩ := P.pure_inv hm2
    refine ⟨hch.le, fun a b => ?_⟩
    obtain ⟨k, a, b, c, d, hu⟩ := hch.fill a b
    exact ⟨k, a, b, c, d, by rw [MoovStep, hu]⟩

theorem udtaItems_of {u : Udta} {r} (h : LastOf Kid.sel MetaItems u r) : UdtaItems u r.join := ⟨r, h, rfl⟩

/-- The items after a loop over the children of the movie atom. -/
theorem moovSteps {ks : List MoovKid} : ∀ {s s' : Mp4.Moov}, Steps MoovStep s ks s' →
    (∀ k ∈ ks, ∀ u, k.udta? = some u → ∃ g, UdtaItems u g) ∧
    match (ks.filterMap MoovKid.udta?).getLast? with
    | some u => ∃ g, UdtaItems u g ∧ (s'.udta.bind id).bind id = g.map group
    | none => s'.udta = s.udta := by
  induction ks with
  | nil => rintro s s' rfl; exact ⟨by simp, rfl⟩
  | cons k ks ih =>
    rintro s s' ⟨m, h1, h2⟩
    obtain ⟨i1, i2⟩ := ih h2
    cases hk : k.udta? with
    | none =>
      rw [MoovStep, hk] at h1
      refine ⟨fun x hx u hu => ?_, ?_⟩
      · rcases List.mem_cons.mp hx with rfl | hx
        · rw [hk] at hu; cases hu
        · exact i1 x hx u hu
      · rw [List.filterMap_cons_none hk]
        cases hl : (ks.filterMap MoovKid.udta?).getLast? with
        | none => rw [hl] at i2; exact i2.trans h1
        | some u => rw [hl] at i2; exact i2
    | some v =>
      rw [MoovStep, hk] at h1
      obtain ⟨r, hr, hm⟩ := h1
      refine ⟨fun x hx u hu => ?_, ?_⟩
      · rcases List.mem_cons.mp hx with rfl | hx
        · rw [hk] at hu; cases hu; exact ⟨_, udtaItems_of hr⟩
        · exact i1 x hx u hu
      · rw [List.filterMap_cons_some hk, List.getLast?_cons]
        cases hl : (ks.filterMap MoovKid.udta?).getLast? with
        | none =>
          rw [hl] at i2
          refine ⟨_, udtaItems_of hr, ?_⟩
          rw [i2, hm]
          cases r <;> rfl
        | some u => rw [hl] at i2; exact i2

theorem parseMoov_fills (hs : SaneB e F) {h : Head} {p : Nat} (hat : HeadOf F p h) :
    Par e F (p + h.size.headLen) (parseMoov h.size) fun t q =>
      Fills F (p + h.size.headLen) (h.size.len - h.size.headLen) (fun c => ∃ s : Spec.Moov, c = s.ser ∧ s.WF ∧
        ∃ r, LastOf MoovKid.udta? UdtaItems s r ∧ ((t.udta.bind id).bind id).getD [] = group (r.join.getD [])) q := by
  have h1 := hs.size hat
  refine .bind (Q := fun _ q => p + h.size.headLen = q) (Tot.par (.getFuel rfl)) ?_
  rintro f _ rfl
  refine (walk_steps (handle := moovHandle) (S := MoovStep) hs (contentLen_sane h1.1) (by omega) (fun s h p hat => moovHandle_fills hs hat) f {} 0 _).mono fun t q hq => ?_
  refine ⟨hq.le, fun a b => ?_⟩
  obtain ⟨_, hc, hn, ks, rfl, h2, h3⟩ := hq.fill a b
  refine ⟨_, hc, hn, ks, rfl, fun k hk => (h2 k hk).2 (h2 k hk).1, ?_⟩
  obtain ⟨i1, i2⟩ := moovSteps h3
  cases hl : (ks.filterMap MoovKid.udta?).getLast? with
  | none =>
    rw [hl] at i2
    exact ⟨none, ⟨i1, by rw [hl]⟩, by rw [i2]; rfl⟩
  | some u =>
    rw [hl] at i2
    obtain ⟨g, hg, hv⟩ := i2
    refine ⟨some g, ⟨i1, by rw [hl]; exact ⟨g, rfl, hg⟩⟩, ?_⟩
    rw [hv]
    cases g <;> rfl

end

end Mp4
