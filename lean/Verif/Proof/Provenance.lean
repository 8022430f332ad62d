import Verif.Proof.SaneRead
import Verif.Proof.ReadErr
import Verif.Spec.Provenance
/-
Arbitrary input, no assumption on sizes: what is known of a successful run.
-/
namespace Mp4
open Spec

/-- If the result is `ok`, `Q` holds of it. -/
def Par {α} (e : Env) (F : Bytes) (p : Nat) (m : P α) (Q : α → Nat → Prop) : Prop :=
  ∀ a q, m e F p = .ok (a, q) → Q a q

section
variable {α β : Type} {e : Env} {F : Bytes} {p : Nat}

theorem Tot.par {m : P α} {Q : α → Nat → Prop} (h : Tot True e F p m Q) : Par e F p m Q := by
  intro a q hm
  unfold Tot at h
  rw [hm] at h
  exact h

theorem Par.bind {m : P α} {f : α → P β} {Q : α → Nat → Prop} {R : β → Nat → Prop} (h1 : Par e F p m Q)
    (h2 : ∀ a q, Q a q → Par e F q (f a) R) : Par e F p (m >>= f) R := by
  intro b r h
  obtain ⟨a, q, hm, hf⟩ := P.bind_inv h
  exact h2 a q (h1 a q hm) b r hf

theorem Par.mono {m : P α} {Q R : α → Nat → Prop} (h : Par e F p m Q) (hi : ∀ a q, Q a q → R a q) :
    Par e F p m R := fun a q hm => hi a q (h a q hm)

theorem Par.pure {Q : α → Nat → Prop} {a : α} (h : Q a p) : Par e F p (pure a) Q := by
  intro b q hm
  obtain ⟨rfl, rfl⟩ := P.pure_inv hm
  exact h

theorem Par.fail {Q : α → Nat → Prop} {k} : Par e F p (fail k) Q := fun _ _ h => absurd h P.fail_inv

theorem Par.ite {c : Prop} [Decidable c] {a b : P α} {Q : α → Nat → Prop} (h1 : c → Par e F p a Q)
    (h2 : ¬ c → Par e F p b Q) : Par e F p (if c then a else b) Q := by
  split
  · exact h1 (by assumption)
  · exact h2 (by assumption)

/-- Nothing is known. -/
theorem Par.top {m : P α} : Par e F p m fun _ _ => True := fun _ _ _ => trivial

/-- An arithmetic step does not move. -/
theorem Par.E {m : E α} {Q : α → Nat → Prop} (h : ∀ a, m e = .ok a → Q a p) : Par e F p m.p Q := by
  intro a q hm
  obtain ⟨h1, rfl⟩ := E.p_inv hm
  exact h a h1

/-- Bytes that are there because bytes behind them are. -/
theorem At_before {n : Nat} {c : Bytes} (h : At F (p + n) c) :
    ∃ b : Bytes, b.length = n ∧ At F p (b ++ c) := by
  have hle := h.le
  have hl : ((F.drop p).take n).length = n := by rw [List.length_take, List.length_drop]; omega
  exact ⟨_, hl, At_append.mpr ⟨At_take (by omega), by rw [hl]; exact h⟩⟩

/-! ### Values -/

theorem subU_cases {a b c : Nat} (h : subU a b e = .ok c) : (b ≤ a ∧ c = a - b) ∨ (a < b ∧ c = 2^64 + a - b) := by
  unfold subU at h
  split at h
  · injection h with h; exact .inl ⟨by assumption, h.symm⟩
  · split at h
    · simp at h
    · injection h with h; exact .inr ⟨by omega, h.symm⟩

theorem Par.readU8Vec {Q : Bytes → Nat → Prop} {n : Nat}
    (h : ∀ b, n < 2^63 → b.length = n → b = [] ∨ At F p b → Q b (p + n)) : Par e F p (readU8Vec n) Q := by
  refine .bind (Tot.par (.alloc (Q := fun _ q => n < 2^63 ∧ q = p) (fun _ => trivial) fun h => ⟨h, rfl⟩)) ?_
  rintro _ q ⟨h1, rfl⟩
  refine Tot.par (.readExact fun hl => ?_)
  rcases Nat.eq_zero_or_pos n with rfl | hn
  · exact h _ h1 (by simp) (.inl (by simp))
  · exact h _ h1 (by rw [List.length_take, List.length_drop]; omega) (.inr (At_take (by omega)))

theorem Par.readUtf8 {Q : Str → Nat → Prop} {n : Nat}
    (h : ∀ s, n < 2^63 → (utf8 s).length = n → utf8 s = [] ∨ At F p (utf8 s) → Q s (p + n)) :
    Par e F p (readUtf8 n) Q := by
  refine .bind (.readU8Vec (Q := fun b q => q = p + n ∧ n < 2^63 ∧ b.length = n ∧ (b = [] ∨ At F p b))
    fun b h1 h2 h3 => ⟨rfl, h1, h2, h3⟩) ?_
  rintro b _ ⟨rfl, h1, h2, h3⟩
  cases hd : utf8Dec b with
  | none => exact .fail
  | some s =>
    have hb : utf8 s = b := (utf8Enc_spec s).symm.trans (utf8Dec_inv b s hd)
    subst hb
    exact .pure (h s h1 h2 h3)

theorem utf16Dec_some {b : Bytes} {s : Str} (hd : utf16Dec (units16 b) = some s) :
    ∃ odd : Bytes, odd.length ≤ 1 ∧ b = utf16be s ++ odd := by
  have hsplit : b = b.take (b.length / 2 * 2) ++ b.drop (b.length / 2 * 2) := (List.take_append_drop _ b).symm
  have hodd : (b.drop (b.length / 2 * 2)).length ≤ 1 := by rw [List.length_drop]; omega
  have heven : (b.take (b.length / 2 * 2)).length % 2 = 0 := by rw [List.length_take]; omega
  have hu := units16_append_odd' _ _ heven hodd
  rw [← hsplit] at hu
  have hs := utf16Dec_inv _ s (units16_lt b) hd
  refine ⟨_, hodd, ?_⟩
  rw [utf16be_spec, hs, hu, be16_units16 _ heven, ← hsplit]

theorem Par.readUtf16 {Q : Str → Nat → Prop} {n : Nat}
    (h : ∀ s (odd : Bytes), odd.length ≤ 1 → n < 2^63 → (utf16be s ++ odd).length = n →
      utf16be s ++ odd = [] ∨ At F p (utf16be s ++ odd) → Q s (p + n)) :
    Par e F p (readUtf16 n) Q := by
  have : Mp4.readUtf16 n = (Mp4.readU8Vec n >>= fun b => match utf16Dec (units16 b) with
    | some s => Pure.pure s
    | none => Mp4.fail .utf16StringDecoding) := by
    funext e F p
    simp only [Mp4.readUtf16, Mp4.readU8Vec, P.bind_apply]
    split <;> rfl
  rw [this]
  refine .bind (.readU8Vec (Q := fun b q => q = p + n ∧ n < 2^63 ∧ b.length = n ∧ (b = [] ∨ At F p b))
    fun b h1 h2 h3 => ⟨rfl, h1, h2, h3⟩) ?_
  rintro b _ ⟨rfl, h1, h2, h3⟩
  cases hd : utf16Dec (units16 b) with
  | none => exact .fail
  | some s =>
    obtain ⟨odd, ho, rfl⟩ := utf16Dec_some hd
    exact .pure (h s odd ho h1 h2 h3)

theorem Par.dataParse {Q : Data → Nat → Prop} {t n : Nat}
    (h : ∀ d b, ValueEnc t b d → n < 2^63 → b.length = n → b = [] ∨ At F p b → Q d (p + n)) :
    Par e F p (Data.parse t n) Q := by
  unfold Data.parse
  split
  · exact .bind (.readU8Vec (Q := fun b q => Q (.reserved b) q) fun b => h _ b (.reserved b)) fun _ _ hq => .pure hq
  · exact .bind (.readUtf8 (Q := fun b q => Q (.utf8 b) q) fun s => h _ _ (.utf8 s)) fun _ _ hq => .pure hq
  · exact .bind (.readUtf16 (Q := fun b q => Q (.utf16 b) q) fun s o ho => h _ _ (.utf16 s o ho)) fun _ _ hq => .pure hq
  · exact .bind (.readU8Vec (Q := fun b q => Q (.jpeg b) q) fun b => h _ b (.jpeg b)) fun _ _ hq => .pure hq
  · exact .bind (.readU8Vec (Q := fun b q => Q (.png b) q) fun b => h _ b (.png b)) fun _ _ hq => .pure hq
  · exact .bind (.readU8Vec (Q := fun b q => Q (.beSigned b) q) fun b => h _ b (.beSigned b)) fun _ _ hq => .pure hq
  · exact .bind (.readU8Vec (Q := fun b q => Q (.bmp b) q) fun b => h _ b (.bmp b)) fun _ _ hq => .pure hq
  · exact .fail

/-! ### Heads and loops -/

theorem Par.parseHead {Q : Head → Nat → Prop} (h : ∀ hd, HeadOf F p hd → Q hd (p + hd.size.headLen)) :
    Par e F p parseHead Q := Tot.par (.parseHead h)

theorem Par.parseFullHead {Q : UInt8 × Bytes → Nat → Prop}
    (h : ∀ v fl, fl.length = 3 → At F p (v :: fl) → Q (v, fl) (p + 4)) : Par e F p parseFullHead Q :=
  Tot.par (.parseFullHead h)

theorem walk_par {σ} {limit : E Nat} {handle : σ → Head → P σ} {I : σ → Nat → Prop}
    (hh : ∀ s h p, I s p → HeadOf F p h → Par e F (p + h.size.headLen) (handle s h) I) :
    ∀ f s parsed p, I s p → Par e F p (walk limit handle f s parsed) I := by
  intro f
  induction f with
  | zero => intro s parsed p _ a q h; simp [walk, outOfFuel] at h
  | succ f ih =>
    intro s parsed p hi
    rw [walk]
    refine .bind (.E (Q := fun _ q => p = q) fun _ _ => rfl) ?_
    rintro lim _ rfl
    refine .ite (fun _ => ?_) fun _ => .pure hi
    refine .bind (.parseHead (Q := fun hd q => HeadOf F p hd ∧ q = p + hd.size.headLen) fun hd h => ⟨h, rfl⟩) ?_
    rintro hd _ ⟨hat, rfl⟩
    refine .bind (hh s hd p hi hat) fun s' q hq => ?_
    refine .bind (.E (Q := fun _ r => q = r) fun _ _ => rfl) ?_
    rintro n _ rfl
    exact ih s' n q hq

theorem loop_par {σ} {limit : E Nat} {handle : σ → Head → P σ} {I : σ → Nat → Prop}
    (hh : ∀ s h p, I s p → HeadOf F p h → Par e F (p + h.size.headLen) (handle s h) I)
    {s parsed} (hi : I s p) : Par e F p (loop limit handle s parsed) I := by
  refine .bind (Q := fun _ q => p = q) (Tot.par (.getFuel rfl)) ?_
  rintro f _ rfl
  exact walk_par hh _ _ _ _ hi

/-- A loop that keeps the last child called `fc`. -/
theorem last_par {limit : E Nat} {fc : Fourcc} {child : Size → P α} {J : α → Prop} {parsed : Nat}
    (hc : ∀ h p, HeadOf F p h → h.fourcc = fc → Par e F (p + h.size.headLen) (child h.size) fun a _ => J a) :
    Par e F p (loop limit (fun (s : Option α) h =>
      if h.fourcc = fc then do let a ← child h.size; pure (some a)
      else do skipContent h; pure s) none parsed) fun s _ => ∀ a, s = some a → J a := by
  refine loop_par (I := fun s _ => ∀ a, s = some a → J a) (fun s h p hi hat => ?_) (by simp)
  refine .ite (fun hf => .bind (hc h p hat hf) fun a q ha => .pure ?_) fun _ => .bind .top fun _ _ _ => .pure hi
  intro b hb
  injection hb with hb
  exact hb ▸ ha

/-! ### Items -/

theorem HeadOf.textIn {h : Head} (hat : HeadOf F p h) {fl : Bytes} {s : Str} (hf : fl.length = 3)
    (h1 : At F (p + h.size.headLen) (0 :: fl))
    (h2 : utf8 s = [] ∨ At F (p + h.size.headLen + 4) (utf8 s))
    (hn : h.size.len = h.size.headLen + 4 + (utf8 s).length) : TextIn F h.fourcc s := by
  have hi := hat.headIn
  rw [hn, headLen_hlen] at hi
  have hc : F.drop (p + h.size.headLen) = (0 :: fl) ++ utf8 s ++ F.drop (p + h.size.headLen + 4 + (utf8 s).length) := by
    have hl : (0 :: fl).length = 4 := by simp [hf]
    have hd := h1.drop
    rw [hl] at hd
    rw [hd]
    rcases h2 with h2 | h2
    · rw [h2]; simp
    · rw [h2.drop, List.append_assoc]
  rw [← headLen_hlen] at hi
  rw [hc] at hi
  exact ⟨_, fl, _, hf, hi⟩

/-- What a successful subtraction of a head length and some more says, if the result is less than 2^63. -/
theorem content_sub {s : Size} {k n m : Nat} (hk : k ≤ 8) (hs : s.len < 2^64) (h1 : s.contentLen e = .ok n)
    (h2 : subU n k e = .ok m) (hm : m < 2^63) : s.len = s.headLen + k + m := by
  have h1 := subU_cases h1
  have h2 := subU_cases h2
  unfold Size.headLen
  cases hx : s.ext <;> rw [hx] at h1 <;> simp only [Bool.false_eq_true, if_true, if_false] at h1 ⊢ <;> omega

theorem HeadOf.lt {h : Head} (hat : HeadOf F p h) : h.size.len < 2^64 := by
  have := hat.2.1
  split at this <;> omega

/-- A text atom: version and flags, then the text. -/
theorem Par.text {h : Head} (hat : HeadOf F p h) {f : Str → ItemSt} {Q : ItemSt → Nat → Prop}
    (hq : ∀ s, TextIn F h.fourcc s → h.size.len = h.size.headLen + 4 + (utf8 s).length →
      p + h.size.len ≤ F.length → Q (f s) (p + h.size.len)) :
    Par e F (p + h.size.headLen) (do
      let (version, _) ← Mp4.parseFullHead
      if version ≠ 0 then Mp4.fail (.unknownVersion version)
      else do
        let n ← h.size.contentLen.p
        let n ← (subU n 4).p
        let m ← Mp4.readUtf8 n
        Pure.pure (f m)) Q := by
  refine .bind (.parseFullHead (Q := fun x q => q = p + h.size.headLen + 4 ∧ x.2.length = 3 ∧
    At F (p + h.size.headLen) (x.1 :: x.2)) fun v fl h1 h2 => ⟨rfl, h1, h2⟩) ?_
  rintro ⟨v, fl⟩ _ ⟨rfl, h1, h2⟩
  dsimp only at h1 h2 ⊢
  refine .ite (fun _ => .fail) fun hv => ?_
  have hv : v = 0 := Decidable.not_not.mp hv
  subst hv
  refine .bind (.E (Q := fun n q => q = p + h.size.headLen + 4 ∧ h.size.contentLen e = .ok n) fun _ h => ⟨rfl, h⟩) ?_
  rintro n _ ⟨rfl, h3⟩
  refine .bind (.E (Q := fun m q => q = p + h.size.headLen + 4 ∧ subU n 4 e = .ok m) fun _ h => ⟨rfl, h⟩) ?_
  rintro m _ ⟨rfl, h4⟩
  refine .bind (.readUtf8 (Q := fun s q => Q (f s) q) fun s h5 h6 h7 => ?_) fun _ _ hq => .pure hq
  have hl := content_sub (by omega) hat.lt h3 h4 h5
  have hle := h2.le
  simp only [List.length_cons, h1] at hle
  have : p + h.size.headLen + 4 + m = p + h.size.len := by omega
  rw [this]
  refine hq s (hat.textIn h1 h2 h7 (by omega)) (by omega) ?_
  rcases h7 with h7 | h7
  · rw [h7] at h6; simp at h6; omega
  · have := h7.le; omega

theorem HeadOf.valueIn {h : Head} (hat : HeadOf F p h) {fl b : Bytes} {d : Data} (hf : fl.length = 3)
    (h1 : At F (p + h.size.headLen) (0 :: fl)) (hd : h.fourcc = DATA) (he : ValueEnc (beNat fl) b d)
    (h2 : b = [] ∨ At F (p + h.size.headLen + 4 + 4) b)
    (hn : h.size.len = h.size.headLen + 8 + b.length) : ValueIn F d := by
  have hi := hat.headIn
  rw [hn] at hi
  have hcode : be32 (beNat fl) = 0 :: fl := by
    have := be32_beNat (b := 0 :: fl) (by simp [hf])
    simpa [beNat] using this
  have hl : (0 :: fl).length = 4 := by simp [hf]
  have hdr := h1.drop
  rw [hl, ← hcode] at hdr
  rw [hdr] at hi
  refine ⟨_, beNat fl, b, _, he, hd ▸ hi, ?_⟩
  rcases h2 with h2 | h2
  · exact .inl h2
  · obtain ⟨loc, hloc, hat2⟩ := At_before h2
    exact .inr ⟨loc, _, hloc, hat2.drop⟩

theorem _root_.Mp4.Spec.ValueEnc.code {c b d} (h : ValueEnc c b d) : ValueEnc (typeCode d) b d := by
  cases h <;> constructor <;> assumption

theorem Par.value {h : Head} (hat : HeadOf F p h) (hd : h.fourcc = DATA) {f : Data → ItemSt} {Q : ItemSt → Nat → Prop}
    (hq : ∀ d b, ValueIn F d → ValueEnc (typeCode d) b d → h.size.len = h.size.headLen + 8 + b.length →
      p + h.size.len ≤ F.length + 4 → Q (f d) (p + h.size.len)) :
    Par e F (p + h.size.headLen) (do
      let (version, flags) ← Mp4.parseFullHead
      if version ≠ 0 then Mp4.fail (.unknownVersion version)
      else do
        let datatype := beNat flags
        seekCur 4
        let n ← h.size.contentLen.p
        let n ← (subU n 8).p
        let d ← Data.parse datatype n
        Pure.pure (f d)) Q := by
  refine .bind (.parseFullHead (Q := fun x q => q = p + h.size.headLen + 4 ∧ x.2.length = 3 ∧
    At F (p + h.size.headLen) (x.1 :: x.2)) fun v fl h1 h2 => ⟨rfl, h1, h2⟩) ?_
  rintro ⟨v, fl⟩ _ ⟨rfl, h1, h2⟩
  dsimp only at h1 h2 ⊢
  refine .ite (fun _ => .fail) fun hv => ?_
  have hv : v = 0 := Decidable.not_not.mp hv
  subst hv
  refine .bind (Q := fun _ q => q = p + h.size.headLen + 4 + 4) (Tot.par (.seekCur fun q hq _ => by omega)) ?_
  rintro _ _ rfl
  refine .bind (.E (Q := fun n q => q = p + h.size.headLen + 4 + 4 ∧ h.size.contentLen e = .ok n) fun _ h => ⟨rfl, h⟩) ?_
  rintro n _ ⟨rfl, h3⟩
  refine .bind (.E (Q := fun m q => q = p + h.size.headLen + 4 + 4 ∧ subU n 8 e = .ok m) fun _ h => ⟨rfl, h⟩) ?_
  rintro m _ ⟨rfl, h4⟩
  refine .bind (.dataParse (Q := fun d q => Q (f d) q) fun d b henc h5 h6 h7 => ?_) fun _ _ hq => .pure hq
  have hl := content_sub (by omega) hat.lt h3 h4 h5
  have hle := h2.le
  simp only [List.length_cons, h1] at hle
  have : p + h.size.headLen + 4 + 4 + m = p + h.size.len := by omega
  rw [this]
  refine hq d b (hat.valueIn h1 h2 hd henc h7 (by omega)) henc.code (by omega) ?_
  rcases h7 with h7 | h7
  · subst h7; simp at h6; omega
  · have := h7.le; omega

/-- What is known of the local variables of the item loop. -/
structure ItemIn (F : Bytes) (s : ItemSt) : Prop where
  data : ∀ d ∈ s.data, ValueIn F d
  mean : ∀ m, s.mean = some m → TextIn F MEAN m
  name : ∀ m, s.name = some m → TextIn F NAME m

theorem itemHandle_par {s : ItemSt} {h : Head} (hi : ItemIn F s) (hat : HeadOf F p h) :
    Par e F (p + h.size.headLen) (itemHandle s h) fun s' _ => ItemIn F s' := by
  unfold itemHandle
  refine .ite (fun hd => .value hat hd fun d b hv _ _ _ => ⟨?_, hi.mean, hi.name⟩) fun _ =>
    .ite (fun hd => .text hat fun m hv _ _ => ⟨hi.data, ?_, hi.name⟩) fun _ =>
    .ite (fun hd => .text hat fun m hv _ _ => ⟨hi.data, hi.mean, ?_⟩) fun _ => .bind .top fun _ _ _ => .pure hi
  · intro x hx
    rcases List.mem_append.mp hx with hx | hx
    · exact hi.data x hx
    · rw [List.mem_singleton.mp hx]; exact hv
  · intro x hx
    injection hx with hx
    rw [← hx, ← hd]; exact hv
  · intro x hx
    injection hx with hx
    rw [← hx, ← hd]; exact hv

/-- What is known of the entries of a tag. -/
structure AtomIn (F : Bytes) (a : AtomData) : Prop where
  data : a.data ≠ []
  free : a.ident ≠ .fourcc (cc 'f' 'r' 'e' 'e')
  ident : IdentIn F a.ident
  values : ∀ d ∈ a.data, ValueIn F d

theorem parseItem_par {h : Head} {p0 len : Nat} (hat : HeadOf F p0 h) (hf : h.fourcc ≠ FREE) :
    Par e F p (parseItem h.fourcc len) fun a _ => AtomIn F a := by
  refine .bind (loop_par (I := fun s _ => ItemIn F s) (fun s h p hi hat => itemHandle_par hi hat)
    ⟨by simp, by simp, by simp⟩) fun s q hs => ?_
  refine .ite (fun _ => .fail) fun hne => .pure ?_
  have hhead := hat.headIn
  refine ⟨by simpa using hne, ?_, ?_, hs.data⟩ <;> dsimp only
  · intro hid
    unfold itemIdent at hid
    split at hid
    · split at hid
      · simp at hid
      · injection hid with hid; exact hf hid
    · injection hid with hid; exact hf hid
  · unfold itemIdent
    split
    · rename_i m n hm hn
      split
      · rename_i hfree
        exact ⟨⟨_, _, _, hfree ▸ hhead⟩, hs.mean _ hm, hs.name _ hn⟩
      · exact ⟨_, _, _, hhead⟩
    · exact ⟨_, _, _, hhead⟩

theorem mergeItem_in {l : List AtomData} {a : AtomData} (hl : ∀ x ∈ l, AtomIn F x) (ha : AtomIn F a) :
    ∀ x ∈ mergeItem l a, AtomIn F x := by
  induction l with
  | nil => intro x hx; rw [List.mem_singleton.mp hx]; exact ha
  | cons o os ih =>
    intro x hx
    unfold mergeItem at hx
    have ho := hl o (by simp)
    split at hx
    · rcases List.mem_cons.mp hx with rfl | hx
      · refine ⟨by simp [ho.data], ho.free, ho.ident, fun d hd => ?_⟩
        rcases List.mem_append.mp hd with hd | hd
        · exact ho.values d hd
        · exact ha.values d hd
      · exact hl x (by simp [hx])
    · rcases List.mem_cons.mp hx with rfl | hx
      · exact ho
      · exact ih (fun y hy => hl y (by simp [hy])) x hx

theorem parseIlst_par {size : Size} : Par e F p (parseIlst size) fun l _ => ∀ a ∈ l, AtomIn F a := by
  refine loop_par (I := fun l _ => ∀ a ∈ l, AtomIn F a) (fun s h p hi hat => ?_) (by simp)
  refine .ite (fun _ => .bind .top fun _ _ _ => .pure hi) fun hf => .bind .top fun n q _ => ?_
  exact .bind (parseItem_par hat hf) fun a r ha => .pure (mergeItem_in hi ha)

theorem parseMeta_par {size : Size} : Par e F p (parseMeta size) fun o _ => ∀ l, o = some l → ∀ a ∈ l, AtomIn F a := by
  refine .bind .top ?_
  rintro ⟨v, fl⟩ q _
  refine .ite (fun _ => .fail) fun _ => ?_
  exact last_par fun h p hat hf => parseIlst_par

theorem parseUdta_par {size : Size} :
    Par e F p (parseUdta size) fun o _ => ∀ m, o = some m → ∀ l, m = some l → ∀ a ∈ l, AtomIn F a :=
  last_par fun h p hat hf => parseMeta_par

/-! ### Movie header -/

theorem mulU_cases {a b c : Nat} (h : mulU a b e = .ok c) :
    c = a * b % 2^64 ∧ (e.checked = true → a * b < 2^64) := by
  unfold mulU at h
  split at h
  · injection h with h; exact ⟨by rw [Nat.mod_eq_of_lt (by assumption), h], fun _ => by assumption⟩
  · split at h
    · simp at h
    · rename_i hc
      injection h with h; exact ⟨by omega, fun hx => absurd hx hc⟩

theorem divU_cases {a b c : Nat} (h : divU a b e = .ok c) : 0 < b ∧ c = a / b := by
  unfold divU at h
  split at h
  · simp at h
  · injection h with h; exact ⟨by omega, h.symm⟩

/-- A head and content found behind it. -/
theorem HeadOf.content {h : Head} (hat : HeadOf F p h) {c : Bytes} (hc : At F (p + h.size.headLen) c) :
    ∃ rest, HeadIn F h.size.ext h.fourcc h.size.len (c ++ rest) := by
  have hi := hat.headIn
  rw [hc.drop] at hi
  exact ⟨_, hi⟩

theorem parseMvhd_par {h : Head} (hat : HeadOf F p h) (hf : h.fourcc = MOVIE_HEADER) :
    Par e F (p + h.size.headLen) (parseMvhd h.size) fun d _ => DurationIn F (!e.checked) d := by
  refine .bind (Tot.par (.findBounds (Q := fun b q => q = p + h.size.headLen) rfl)) ?_
  rintro b _ rfl
  generalize hp : p + h.size.headLen = p0
  refine .bind (.parseFullHead (Q := fun x q => q = p0 + 4 ∧ x.2.length = 3 ∧ At F p0 (x.1 :: x.2))
    fun v fl h1 h2 => ⟨rfl, h1, h2⟩) ?_
  rintro ⟨v, fl⟩ _ ⟨rfl, h1, h2⟩
  dsimp only at h1 h2 ⊢
  have hl : (v :: fl).length = 4 := by simp [h1]
  refine .ite (fun hv => ?_) fun _ => .ite (fun hv => ?_) fun _ => .fail
  · subst hv
    refine .bind (Q := fun _ q => q = p0 + 4 + 8) (Tot.par (.seekCur fun q hq _ => by omega)) ?_
    rintro _ _ rfl
    refine .bind (Q := fun v q => q = p0 + 4 + 8 + 4 ∧ v < 2^32 ∧ At F (p0 + 4 + 8) (be32 v))
      (Tot.par (.readU32 fun v h1 h2 => ⟨rfl, h1, h2⟩)) ?_
    rintro scale _ ⟨rfl, hs, hs2⟩
    refine .bind (Q := fun v q => q = p0 + 4 + 8 + 4 + 4 ∧ v < 2^32 ∧ At F (p0 + 4 + 8 + 4) (be32 v))
      (Tot.par (.readU32 fun v h1 h2 => ⟨rfl, h1, h2⟩)) ?_
    rintro dur _ ⟨rfl, hd, hd2⟩
    refine .bind (.E (Q := fun n _ => n = dur * 1000000000) fun n hn => ?_) ?_
    · rw [(mulU_cases hn).1]; omega
    rintro n q1 rfl
    refine .bind (.E (Q := fun n _ => 0 < scale ∧ n = dur * 1000000000 / scale) fun n hn => divU_cases hn) ?_
    rintro d q2 ⟨hpos, rfl⟩
    refine .bind .top fun _ _ _ => .pure ?_
    obtain ⟨times, ht, hat2⟩ := At_before (At_append.mpr ⟨hs2, hd2⟩)
    have hall : At F p0 ((0 :: fl) ++ (times ++ (be32 scale ++ be32 dur))) := At_append.mpr ⟨h2, by rw [hl]; exact hat2⟩
    obtain ⟨rest, hin⟩ := hat.content (hp ▸ hall)
    refine ⟨h.size.ext, h.size.len, fl, times, scale, dur, rest, h1, hpos, hs, .inl ⟨ht, hd, rfl, ?_⟩⟩
    rw [← show MOVIE_HEADER = cc 'm' 'v' 'h' 'd' from rfl, ← hf]
    simpa using hin
  · subst hv
    refine .bind (Q := fun _ q => q = p0 + 4 + 16) (Tot.par (.seekCur fun q hq _ => by omega)) ?_
    rintro _ _ rfl
    refine .bind (Q := fun v q => q = p0 + 4 + 16 + 4 ∧ v < 2^32 ∧ At F (p0 + 4 + 16) (be32 v))
      (Tot.par (.readU32 fun v h1 h2 => ⟨rfl, h1, h2⟩)) ?_
    rintro scale _ ⟨rfl, hs, hs2⟩
    refine .bind (Q := fun v q => q = p0 + 4 + 16 + 4 + 8 ∧ v < 2^64 ∧ At F (p0 + 4 + 16 + 4) (be64 v))
      (Tot.par (.readU64 fun v h1 h2 => ⟨rfl, h1, h2⟩)) ?_
    rintro dur _ ⟨rfl, hd, hd2⟩
    refine .bind (.E (Q := fun n _ => n = dur * 1000000000 % 2^64 ∧ (e.checked = true → dur * 1000000000 < 2^64))
      fun n hn => mulU_cases hn) ?_
    rintro n q1 ⟨rfl, hn⟩
    refine .bind (.E (Q := fun n _ => 0 < scale ∧ n = dur * 1000000000 % 2^64 / scale) fun n hn => divU_cases hn) ?_
    rintro d q2 ⟨hpos, rfl⟩
    refine .bind .top fun _ _ _ => .pure ?_
    obtain ⟨times, ht, hat2⟩ := At_before (At_append.mpr ⟨hs2, hd2⟩)
    have hall : At F p0 ((1 :: fl) ++ (times ++ (be32 scale ++ be64 dur))) := At_append.mpr ⟨h2, by rw [hl]; exact hat2⟩
    obtain ⟨rest, hin⟩ := hat.content (hp ▸ hall)
    refine ⟨h.size.ext, h.size.len, fl, times, scale, dur, rest, h1, hpos, hs, .inr ⟨ht, hd, ?_, ?_⟩⟩
    · cases hc : e.checked with
      | true => simp only [Bool.not_true, Bool.false_eq_true, if_false]; exact ⟨hn hc, by rw [Nat.mod_eq_of_lt (hn hc)]⟩
      | false => rfl
    · rw [← show MOVIE_HEADER = cc 'm' 'v' 'h' 'd' from rfl, ← hf]
      simpa using hin

/-! ### Audio description -/

/-- The head of a descriptor in front of position `p`. -/
def DescAt (F : Bytes) (p : Nat) (tag : UInt8) : Prop :=
  ∃ A len rest, LenBytes 4 len ∧ F = A ++ tag :: len ++ rest ∧ p = A.length + 1 + len.length

theorem descHeadLoop_par {k headLen len : Nat} (hk : 0 < k) :
    Par e F p (descHeadLoop k headLen len) fun _ q => ∃ b, LenBytes k b ∧ At F p b ∧ q = p + b.length := by
  induction k generalizing p headLen len with
  | zero => omega
  | succ k ih =>
    rw [descHeadLoop]
    refine .bind (Q := fun v q => q = p + 1 ∧ At F p [v]) (Tot.par (.readU8 fun v h1 => ⟨rfl, h1⟩)) ?_
    rintro v _ ⟨rfl, h1⟩
    dsimp only
    refine .ite (fun hv => .pure ⟨[v], by simp [LenBytes, hv], h1, rfl⟩) fun hv => ?_
    rcases Nat.eq_zero_or_pos k with rfl | hk
    · exact .pure ⟨[v], by simp [LenBytes], h1, rfl⟩
    · refine (ih hk).mono ?_
      rintro _ q ⟨b, hb, hat, rfl⟩
      refine ⟨v :: b, ?_, At_append.mpr ⟨h1, hat⟩, by simp; omega⟩
      have : b ≠ [] := by rintro rfl; cases k <;> simp [LenBytes] at hb
      rw [LenBytes, if_neg this]
      exact ⟨by omega, hb⟩

theorem parseDescHead_par : Par e F p parseDescHead fun x q => DescAt F q x.1 := by
  refine .bind (Q := fun v q => q = p + 1 ∧ At F p [v]) (Tot.par (.readU8 fun v h1 => ⟨rfl, h1⟩)) ?_
  rintro v _ ⟨rfl, h1⟩
  refine .bind (descHeadLoop_par (by decide)) ?_
  rintro ⟨n, m⟩ _ ⟨b, hb, hat, rfl⟩
  refine .pure ?_
  obtain ⟨A, B, hF, hA⟩ := (At_append.mpr ⟨h1, hat⟩ : At F p ([v] ++ b)).elim
  exact ⟨A, b, B, hb, by simpa using hF, by omega⟩

/-- Content behind a descriptor head. -/
theorem DescAt.descIn {tag : UInt8} (h : DescAt F p tag) {c : Bytes} (hc : At F p c) : DescIn F tag c := by
  obtain ⟨A, len, rest, h1, h2, h3⟩ := h
  refine ⟨A, len, F.drop (p + c.length), h1, ?_⟩
  have hd := hc.drop
  have : F.drop p = rest := by
    rw [h3, h2, show A.length + 1 + len.length = (A ++ tag :: len).length by simp; omega, List.drop_left]
  rw [this] at hd
  conv => lhs; rw [h2, hd]
  simp

/-- What is known of the local variables of the audio parsers. -/
structure InfoIn (F : Bytes) (i : Mp4a) : Prop where
  rates : (i.maxBitrate = none ∧ i.avgBitrate = none) ∨
    ∃ x y, i.maxBitrate = some x ∧ i.avgBitrate = some y ∧ RatesIn F x y
  spec : (i.sampleRate = none ∧ i.channelConfig = none) ∨
    ∃ r c, i.sampleRate = sampleRates[r]? ∧ i.channelConfig = channelOf c ∧ SpecIn F r c

theorem descWalk_par {wanted : UInt8} {handle : Mp4a → Nat → P Mp4a} {limit : Nat}
    (hh : ∀ i n p, InfoIn F i → DescAt F p wanted → Par e F p (handle i n) fun i' _ => InfoIn F i') :
    ∀ f i parsed p, InfoIn F i → Par e F p (descWalk wanted handle limit f i parsed) fun i' _ => InfoIn F i' := by
  intro f
  induction f with
  | zero => intro i parsed p _ a q h; simp [descWalk, outOfFuel] at h
  | succ f ih =>
    intro i parsed p hi
    rw [descWalk]
    refine .ite (fun _ => ?_) fun _ => .pure hi
    refine .bind parseDescHead_par ?_
    rintro ⟨tag, hl, dl⟩ q hd
    dsimp only at hd ⊢
    refine .bind (Q := fun i' _ => InfoIn F i') (.ite (fun ht => hh _ _ _ hi (ht ▸ hd)) fun _ => .bind .top fun _ _ _ => .pure hi)
      fun i' q hi' => ?_
    exact .bind .top fun _ _ _ => .bind .top fun _ _ _ => ih _ _ _ hi'

theorem dsBody_of {b : Bytes} (hb : b.length = 2) : DsBody b (beNat b / 128 % 16) (beNat b / 8 % 16) := by
  match b, hb with
  | [x, y], _ =>
    have hx := x.toNat_lt
    have hy := y.toNat_lt
    have hn : beNat [x, y] = x.toNat * 256 + y.toNat := by simp [beNat]
    rw [hn]
    refine ⟨x.toNat / 8, y.toNat % 8, [], by omega, by omega, by omega, by omega, ?_⟩
    rw [List.append_nil]
    have h1 : x.toNat / 8 * 8 + (x.toNat * 256 + y.toNat) / 128 % 16 / 2 = x.toNat := by omega
    have h2 : (x.toNat * 256 + y.toNat) / 128 % 16 % 2 * 128 + (x.toNat * 256 + y.toNat) / 8 % 16 * 8 + y.toNat % 8 = y.toNat := by
      omega
    rw [h1, h2]
    simp

theorem parseDsDesc_par {i : Mp4a} {n : Nat} (hi : InfoIn F i) (hd : DescAt F p 5) :
    Par e F p (parseDsDesc i n) fun i' _ => InfoIn F i' := by
  refine .bind (Q := fun v q => ∃ b : Bytes, b.length = 2 ∧ At F p b ∧ v = beNat b) ?_ ?_
  · refine .bind (Q := fun b q => b.length = 2 ∧ At F p b) (Tot.par (.readN (by decide) fun b h1 h2 => ⟨h1, h2⟩)) ?_
    rintro b q ⟨h1, h2⟩
    exact .pure ⟨b, h1, h2, rfl⟩
  · rintro _ q ⟨b, h1, h2, rfl⟩
    dsimp only
    refine .bind .top fun _ _ _ => .bind .top fun _ _ _ => .pure ⟨hi.rates, .inr ⟨_, _, ?_, ?_, b, dsBody_of h1, hd.descIn h2⟩⟩
    · exact sampleRate_code _
    · exact channel_code _

theorem parseDcDesc_par {i : Mp4a} {n : Nat} (hi : InfoIn F i) (hd : DescAt F p 4) :
    Par e F p (parseDcDesc i n) fun i' _ => InfoIn F i' := by
  refine .bind (Q := fun _ q => q = p + 5) (Tot.par (.seekCur fun q hq _ => by omega)) ?_
  rintro _ _ rfl
  refine .bind (Q := fun v q => q = p + 5 + 4 ∧ v < 2^32 ∧ At F (p + 5) (be32 v))
    (Tot.par (.readU32 fun v h1 h2 => ⟨rfl, h1, h2⟩)) ?_
  rintro mx _ ⟨rfl, h1, h2⟩
  refine .bind (Q := fun v q => q = p + 5 + 4 + 4 ∧ v < 2^32 ∧ At F (p + 5 + 4) (be32 v))
    (Tot.par (.readU32 fun v h1 h2 => ⟨rfl, h1, h2⟩)) ?_
  rintro avg _ ⟨rfl, h3, h4⟩
  refine .bind .top fun f _ _ => ?_
  obtain ⟨front, hf, hat⟩ := At_before (At_append.mpr ⟨h2, h4⟩)
  refine descWalk_par (fun i n p hi hd => parseDsDesc_par hi hd) _ _ _ _ ⟨.inr ⟨mx, avg, rfl, rfl, front, hf, h1, h3, ?_⟩, hi.spec⟩
  rw [List.append_assoc]
  exact hd.descIn hat

theorem parseEsDesc_par {i : Mp4a} {n : Nat} (hi : InfoIn F i) : Par e F p (parseEsDesc i n) fun i' _ => InfoIn F i' :=
  .bind .top fun _ _ _ => .bind .top fun _ _ _ => descWalk_par (fun _ _ _ hi hd => parseDcDesc_par hi hd) _ _ _ _ hi

theorem parseEsds_par {i : Mp4a} {s : Size} (hi : InfoIn F i) : Par e F p (parseEsds i s) fun i' _ => InfoIn F i' := by
  refine .bind .top ?_
  rintro ⟨v, fl⟩ q _
  refine .ite (fun _ => .fail) fun _ => .bind .top ?_
  rintro ⟨t, x, y⟩ q _
  exact .ite (fun _ => .fail) fun _ => .bind .top fun _ _ _ => .bind .top fun _ _ _ => .bind .top fun _ _ _ => parseEsDesc_par hi

theorem parseMp4a_par {h : Head} (hat : HeadOf F p h) (hf : h.fourcc = MP4_AUDIO) :
    Par e F (p + h.size.headLen) (parseMp4a h.size) fun i _ => InfoIn F i ∧ AudioIn F := by
  refine .bind .top fun b q1 _ => .bind .top fun _ q2 _ => ?_
  refine .bind (.parseHead (Q := fun hd q => HeadOf F q2 hd) fun hd h => h) fun hd q3 hat2 => ?_
  refine .ite (fun _ => .fail) fun hf2 => ?_
  have hf2 : hd.fourcc = ELEMENTARY_STREAM_DESCRIPTION := Decidable.not_not.mp hf2
  refine .bind (parseEsds_par ⟨.inl ⟨rfl, rfl⟩, .inl ⟨rfl, rfl⟩⟩) fun i q4 hi => .bind .top fun _ _ _ => .pure ⟨hi, ?_, ?_⟩
  · exact ⟨_, _, _, hf ▸ hat.headIn⟩
  · exact ⟨_, _, _, hf2 ▸ hat2.headIn⟩

theorem parseTrak_par {size : Size} :
    Par e F p (parseTrak size) fun t _ => ∀ i, trakMp4a t = some i → InfoIn F i ∧ AudioIn F := by
  have hstsd : ∀ (h : Head) p, HeadOf F p h → h.fourcc = SAMPLE_TABLE_SAMPLE_DESCRIPTION →
      Par e F (p + h.size.headLen) (parseStsd h.size) fun o _ => ∀ i, o = some i → InfoIn F i ∧ AudioIn F := by
    intro h p _ _
    refine .bind .top ?_
    rintro ⟨v, fl⟩ q _
    exact .ite (fun _ => .fail) fun _ => .bind .top fun _ _ _ => last_par fun h p hat hf => parseMp4a_par hat hf
  have hstbl : ∀ (h : Head) p, HeadOf F p h → h.fourcc = SAMPLE_TABLE → Par e F (p + h.size.headLen) (parseStbl h.size)
      fun o _ => ∀ a, o = some a → ∀ i, a = some i → InfoIn F i ∧ AudioIn F := fun _ _ _ _ => last_par hstsd
  have hminf : ∀ (h : Head) p, HeadOf F p h → h.fourcc = MEDIA_INFORMATION → Par e F (p + h.size.headLen) (parseMinf h.size)
      fun o _ => ∀ b, o = some b → ∀ a, b = some a → ∀ i, a = some i → InfoIn F i ∧ AudioIn F := fun _ _ _ _ => last_par hstbl
  have hmdia : ∀ (h : Head) p, HeadOf F p h → h.fourcc = MEDIA → Par e F (p + h.size.headLen) (parseMdia h.size)
      fun o _ => ∀ c, o = some c → ∀ b, c = some b → ∀ a, b = some a → ∀ i, a = some i → InfoIn F i ∧ AudioIn F :=
    fun _ _ _ _ => last_par hminf
  refine (last_par hmdia).mono fun t q ht i hi => ?_
  unfold trakMp4a at hi
  simp only [Option.bind_eq_some_iff, id] at hi
  obtain ⟨a, ⟨b, ⟨c, ⟨d, h1, h2⟩, h3⟩, h4⟩, h5⟩ := hi
  exact ht d h1 c h2 b h3 a h4 i h5

/-! ### The whole file -/

/-- What is known of the local variables of the movie loop. -/
structure MovieIn (F : Bytes) (wrap : Bool) (m : Moov) : Prop where
  mvhd : ∀ d, m.mvhd = some d → DurationIn F wrap d
  trak : ∀ t ∈ m.trak, ∀ i, trakMp4a t = some i → InfoIn F i ∧ AudioIn F
  udta : ∀ u, m.udta = some u → ∀ o, u = some o → ∀ l, o = some l → ∀ a ∈ l, AtomIn F a

theorem parseMoov_par {size : Size} : Par e F p (parseMoov size) fun m _ => MovieIn F (!e.checked) m := by
  refine loop_par (I := fun m _ => MovieIn F (!e.checked) m) (fun s h p hi hat => ?_)
    ⟨by simp, by simp, by simp⟩
  unfold moovHandle
  refine .ite (fun hf => .bind (parseMvhd_par hat hf) fun a q ha => .pure ⟨?_, hi.trak, hi.udta⟩) fun _ =>
    .ite (fun hf => .bind parseTrak_par fun a q ha => .pure ⟨hi.mvhd, ?_, hi.udta⟩) fun _ =>
    .ite (fun hf => .bind parseUdta_par fun a q ha => .pure ⟨hi.mvhd, hi.trak, ?_⟩) fun _ => .bind .top fun _ _ _ => .pure hi
  · intro d hd; injection hd with hd; exact hd ▸ ha
  · intro t ht
    rcases List.mem_append.mp ht with ht | ht
    · exact hi.trak t ht
    · rw [List.mem_singleton.mp ht]; exact ha
  · intro u hu; injection hu with hu; exact hu ▸ ha

theorem topWalk_par {len : Nat} : ∀ f parsed p, Par e F p (topWalk len f parsed) fun m _ => MovieIn F (!e.checked) m := by
  intro f
  induction f with
  | zero => intro parsed p a q h; simp [topWalk, outOfFuel] at h
  | succ f ih =>
    intro parsed p
    rw [topWalk]
    refine .ite (fun _ => .fail) fun _ => .bind .top fun hd q _ => .ite (fun _ => parseMoov_par) fun _ => ?_
    exact .bind .top fun _ _ _ => .bind .top fun _ _ _ => ih _ _

theorem parseFtyp_par : Par e F p parseFtyp fun s _ => FtypIn F s := by
  refine .bind (.parseHead (Q := fun hd q => q = p + hd.size.headLen ∧ HeadOf F p hd) fun hd h => ⟨rfl, h⟩) ?_
  rintro h _ ⟨rfl, hat⟩
  refine .ite (fun _ => .fail) fun hf => ?_
  have hf : h.fourcc = FILETYPE := Decidable.not_not.mp hf
  refine .bind (.E (Q := fun n q => q = p + h.size.headLen ∧ h.size.contentLen e = .ok n) fun _ h => ⟨rfl, h⟩) ?_
  rintro n _ ⟨rfl, h3⟩
  refine .readUtf8 fun s h5 h6 h7 => ?_
  have hl := content_sub (k := 0) (by omega) hat.lt h3 (m := n) (by rw [subU, if_pos (by omega)]; rfl) h5
  have hi := hat.headIn
  rw [show h.size.len = hlen h.size.ext + (utf8 s).length by rw [← headLen_hlen]; omega] at hi
  rcases h7 with h7 | h7
  · exact ⟨_, F.drop (p + h.size.headLen), by rw [h7] at hi ⊢; exact hf ▸ hi⟩
  · rw [h7.drop] at hi
    exact ⟨_, _, hf ▸ hi⟩

theorem readTag_in {pos : Nat} {t : Tag} (h : readTag e F pos = .ok t) : TagIn F (!e.checked) t := by
  have hp : Par e F pos readTagP fun t _ => TagIn F (!e.checked) t := by
    refine .bind parseFtyp_par fun s q hs => .bind .top fun _ _ _ => .bind .top fun _ _ _ => .bind (topWalk_par _ _ _) fun m r hm => .pure ?_
    have hat : ∀ a ∈ (mkTag s m).atoms, AtomIn F a := by
      intro a ha
      have ha : a ∈ ((m.udta.bind id).bind id).getD [] := ha
      cases hx : (m.udta.bind id).bind id with
      | none => rw [hx] at ha; simp at ha
      | some l =>
        rw [hx] at ha
        simp only [Option.bind_eq_some_iff, id] at hx
        obtain ⟨o, ⟨u, h1, h2⟩, h3⟩ := hx
        exact hm.udta u h1 o h2 l h3 a ha
    have haud : ∀ i, m.trak.findSome? trakMp4a = some i → InfoIn F i ∧ AudioIn F := by
      intro i hi
      obtain ⟨t, ht, hti⟩ := List.exists_of_findSome?_eq_some hi
      exact hm.trak t ht i hti
    refine ⟨hs, fun a ha => ⟨(hat a ha).data, (hat a ha).free⟩, fun a ha => (hat a ha).ident, fun a ha => (hat a ha).values, ?_, ?_, ?_⟩
    · intro d hd
      refine hm.mvhd d ?_
      rw [← hd]
      unfold mkTag
      cases m.mvhd <;> cases m.trak.findSome? trakMp4a <;> rfl
    · unfold mkTag
      cases hx : m.trak.findSome? trakMp4a with
      | none => left; cases m.mvhd <;> exact ⟨rfl, rfl⟩
      | some i =>
        obtain ⟨h1, h2⟩ := haud i hx
        rcases h1.rates with h | ⟨x, y, h3, h4, h5⟩
        · left; cases m.mvhd <;> exact h
        · right; cases m.mvhd <;> exact ⟨x, y, h3, h4, h2, h5⟩
    · unfold mkTag
      cases hx : m.trak.findSome? trakMp4a with
      | none => left; cases m.mvhd <;> exact ⟨rfl, rfl⟩
      | some i =>
        obtain ⟨h1, h2⟩ := haud i hx
        rcases h1.spec with h | ⟨x, y, h3, h4, h5⟩
        · left; cases m.mvhd <;> exact h
        · right; cases m.mvhd <;> exact ⟨x, y, h3, h4, h2, h5⟩
  unfold readTag at h
  cases hm : readTagP e F pos with
  | ok x => rw [hm] at h; injection h with h; exact h ▸ hp x.1 x.2 hm
  | err => rw [hm] at h; simp [Out.val] at h
  | panic => rw [hm] at h; simp [Out.val] at h
  | fuel => rw [hm] at h; simp [Out.val] at h

end
end Mp4
