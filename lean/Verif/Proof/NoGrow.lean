import Verif.Proof.Provenance
/-
Arbitrary input with sane 64 bit sizes: the items of the tag need no more room than they have in the input.
-/
namespace Mp4
open Spec

section
variable {α β : Type} {e : Env} {F : Bytes} {p : Nat}

/-- Bytes of the `data` atoms of values. -/
def dataSize (ds : List Data) : Nat := (serL Part.box (ds.map dataPart)).length

/-- Bytes of the item of an entry. -/
def entrySize (a : AtomData) : Nat := (entryOf a).box.ser.length

/-- Bytes of the items of entries. -/
def entriesSize (l : List AtomData) : Nat := (serL Entry.box (l.map entryOf)).length

theorem dataSize_append (a b : List Data) : dataSize (a ++ b) = dataSize a + dataSize b := by
  simp [dataSize, serL_append]

theorem dataSize_single (d : Data) : dataSize [d] = 16 + (payload d).length := by
  simp [dataSize, serL, dataPart, Part.box, Box.ser_length, Box.headLen, be32_length]
  omega

theorem entrySize_fourcc (f : Fourcc) (ds : List Data) : entrySize ⟨.fourcc f, ds⟩ = 8 + dataSize ds := by
  simp [entrySize, entryOf, Entry.box, Box.ser_length, Box.headLen, dataSize]

theorem entrySize_freeform (m n : Str) (ds : List Data) :
    entrySize ⟨.freeform m n, ds⟩ = 8 + (12 + (utf8 m).length) + (12 + (utf8 n).length) + dataSize ds := by
  simp [entrySize, entryOf, Entry.box, Box.ser_length, Box.headLen, dataSize, serL, Part.box]
  omega

theorem entriesSize_cons (a : AtomData) (l : List AtomData) : entriesSize (a :: l) = entrySize a + entriesSize l := by
  simp [entriesSize, entrySize, serL]

theorem mergeItem_size (l : List AtomData) (a : AtomData) : entriesSize (mergeItem l a) ≤ entriesSize l + entrySize a := by
  induction l with
  | nil => simp [mergeItem, entriesSize, entrySize, serL]
  | cons o os ih =>
    unfold mergeItem
    split
    · rename_i hid
      rw [entriesSize_cons, entriesSize_cons]
      obtain ⟨oi, od⟩ := o
      obtain ⟨ai, ad⟩ := a
      dsimp only at hid ⊢
      subst hid
      cases ai with
      | fourcc f => simp only [entrySize_fourcc, dataSize_append]; omega
      | freeform m n => simp only [entrySize_freeform, dataSize_append]; omega
    · rw [entriesSize_cons, entriesSize_cons]; omega

theorem payload_le {c b d} (h : ValueEnc c b d) : (payload d).length ≤ b.length := by
  cases h <;> simp [payload]

/-! ### Items -/

def textSize : Option Str → Nat
  | none => 0
  | some s => 12 + (utf8 s).length

/-- Bytes needed for the local variables of the item loop. -/
def itemSize (s : ItemSt) : Nat := textSize s.mean + textSize s.name + dataSize s.data

theorem headLen_ge (s : Size) : 8 ≤ s.headLen := by unfold Size.headLen; split <;> omega

/-- The bytes are in front of the current position and in the input, but for a locale. -/
def Room (F : Bytes) (p0 n q : Nat) : Prop := n + p0 ≤ q ∧ n + p0 ≤ F.length + 4

theorem itemHandle_room (hs : SaneB e F) {p0 : Nat} (s : ItemSt) (h : Head) (p : Nat) (hi : Room F p0 (itemSize s) p)
    (hat : HeadOf F p h) :
    Par e F (p + h.size.headLen) (itemHandle s h) fun s' q => Room F p0 (itemSize s') q := by
  have h8 := headLen_ge h.size
  obtain ⟨hi1, hi2⟩ := hi
  unfold itemHandle
  refine .ite (fun hd => .value hat hd fun d b _ henc hn hle => ?_) fun _ =>
    .ite (fun hd => .text hat fun m hv hn hle => ?_) fun _ =>
    .ite (fun hd => .text hat fun m hv hn hle => ?_) fun _ => ?_
  · have := payload_le henc
    unfold itemSize at hi1 ⊢
    unfold Room
    simp only [dataSize_append, dataSize_single]
    omega
  · unfold itemSize at hi1 ⊢
    unfold Room
    simp only [textSize] at hi1 ⊢
    omega
  · unfold itemSize at hi1 ⊢
    unfold Room
    simp only [textSize] at hi1 ⊢
    omega
  · refine .bind (Tot.par (.skipContent hs hat)) fun _ q hq => .pure ⟨by omega, hi2⟩

theorem parseItem_room (hs : SaneB e F) {h : Head} {len : Nat} (hat : HeadOf F p h) :
    Par e F (p + h.size.headLen) (parseItem h.fourcc len) fun a q => Room F p (entrySize a) q := by
  have h8 := headLen_ge h.size
  have hle := hat.le
  refine .bind (loop_par (I := fun s q => Room F (p + h.size.headLen) (itemSize s) q)
    (fun s h p hi hat => itemHandle_room hs s h p hi hat) ⟨?_, ?_⟩) fun s q hi => ?_
  · simp [itemSize, textSize, dataSize, serL]
  · simp [itemSize, textSize, dataSize, serL]; omega
  · obtain ⟨h1, h2⟩ := hi
    refine .ite (fun _ => .fail) fun hne => .pure ?_
    suffices entrySize ⟨itemIdent h.fourcc s.mean s.name, s.data⟩ ≤ 8 + itemSize s from ⟨by omega, by omega⟩
    unfold itemSize
    have hfc : ∀ f, entrySize ⟨.fourcc f, s.data⟩ ≤ 8 + (textSize s.mean + textSize s.name + dataSize s.data) := by
      intro f; rw [entrySize_fourcc]; omega
    unfold itemIdent
    split
    · rename_i m n hm hn
      split
      · rw [entrySize_freeform, hm, hn]; simp only [textSize]; omega
      · exact hfc _
    · exact hfc _

theorem parseIlst_room (hs : SaneB e F) {size : Size} (hp : p ≤ F.length) :
    Par e F p (parseIlst size) fun l q => Room F p (entriesSize l) q := by
  have h0 : entriesSize [] = 0 := rfl
  refine loop_par (I := fun l q => Room F p (entriesSize l) q) (fun s h q hi hat => ?_) ⟨by omega, by omega⟩
  have h8 := headLen_ge h.size
  obtain ⟨h1, h2⟩ := hi
  refine .ite (fun _ => .bind (Tot.par (.skipContent hs hat)) fun _ r hr => .pure ⟨by omega, h2⟩) fun hf => ?_
  refine .bind (.E (Q := fun _ r => r = q + h.size.headLen) fun _ _ => rfl) ?_
  rintro n _ rfl
  refine .bind (parseItem_room hs hat) ?_
  rintro a r ⟨h3, h4⟩
  have := mergeItem_size s a
  exact .pure ⟨by omega, by omega⟩

/-- A loop that keeps the last child called `fc`, with positions. -/
theorem last_room (hs : SaneB e F) {limit : E Nat} {fc : Fourcc} {child : Size → P α} {J : α → Prop} {parsed : Nat}
    (he : Ends True e F child fc)
    (hc : ∀ h q, p ≤ q → HeadOf F q h → h.fourcc = fc → Par e F (q + h.size.headLen) (child h.size) fun a _ => J a) :
    Par e F p (loop limit (fun (s : Option α) h =>
      if h.fourcc = fc then do let a ← child h.size; pure (some a)
      else do skipContent h; pure s) none parsed) fun s _ => ∀ a, s = some a → J a := by
  refine (loop_par (I := fun s q => (∀ a, s = some a → J a) ∧ p ≤ q) (fun s h q hi hat => ?_) ⟨by simp, by omega⟩).mono
    fun _ _ h => h.1
  have hpq := hi.2
  refine .ite (fun hf => .bind (Q := fun a r => J a ∧ q + h.size.headLen ≤ r) (fun a r hm => ⟨hc h q hpq hat hf a r hm, (he h q hat hf).par a r hm⟩) ?_) fun _ =>
    .bind (Tot.par (.skipContent hs hat)) fun _ r hr => .pure ⟨hi.1, by omega⟩
  rintro a r ⟨ha, hr⟩
  refine .pure ⟨fun b hb => ?_, by omega⟩
  injection hb with hb
  exact hb ▸ ha

theorem parseMeta_room (hs : SaneB e F) {h : Head} (hat : HeadOf F p h) :
    Par e F (p + h.size.headLen) (parseMeta h.size) fun o _ => ∀ l, o = some l → entriesSize l + (p + 20) ≤ F.length + 4 := by
  have h8 := headLen_ge h.size
  refine .bind (Tot.par .fullHeadPos) ?_
  rintro ⟨v, fl⟩ _ rfl
  refine .ite (fun _ => .fail) fun _ => ?_
  refine last_room hs (parseIlst_tot ⟨hs, by simp, by simp⟩) fun h q hpq hat hf => ?_
  have := headLen_ge h.size
  refine (parseIlst_room hs hat.le).mono ?_
  rintro l r ⟨h1, h2⟩
  omega

theorem parseUdta_room (hs : SaneB e F) {h : Head} (hat : HeadOf F p h) :
    Par e F (p + h.size.headLen) (parseUdta h.size) fun o _ => ∀ m, o = some m → ∀ l, m = some l →
      entriesSize l + (p + 28) ≤ F.length + 4 := by
  have h8 := headLen_ge h.size
  refine last_room hs (parseMeta_tot ⟨hs, by simp, by simp⟩) fun h q hpq hat hf => ?_
  refine (parseMeta_room hs hat).mono fun o _ ho l hl => ?_
  have := ho l hl
  omega

theorem parseMoov_room (hs : SaneB e F) {h : Head} (hat : HeadOf F p h) :
    Par e F (p + h.size.headLen) (parseMoov h.size) fun m _ => ∀ u, m.udta = some u → ∀ o, u = some o → ∀ l, o = some l →
      entriesSize l + (p + 36) ≤ F.length + 4 := by
  have h8 := headLen_ge h.size
  have hS : Sane True e F := ⟨hs, by simp, by simp⟩
  refine (loop_par (I := fun m q => (∀ u, m.udta = some u → ∀ o, u = some o → ∀ l, o = some l →
      entriesSize l + (p + 36) ≤ F.length + 4) ∧ p + h.size.headLen ≤ q) (fun s hd q hi hat => ?_) ⟨by simp, by omega⟩).mono
    fun _ _ h => h.1
  have hpq := hi.2
  unfold moovHandle
  refine .ite (fun hf => .bind (parseMvhd_tot hS hd q hat hf).par fun a r hr => .pure ⟨hi.1, by omega⟩) fun _ =>
    .ite (fun hf => .bind (parseTrak_tot hS hd q hat hf).par fun a r hr => .pure ⟨hi.1, by omega⟩) fun _ =>
    .ite (fun hf => .bind (Q := fun o r => (∀ m, o = some m → ∀ l, m = some l → entriesSize l + (q + 28) ≤ F.length + 4) ∧
      q + hd.size.headLen ≤ r) (fun a r hm => ⟨parseUdta_room hs hat a r hm, (parseUdta_tot hS hd q hat hf).par a r hm⟩) ?_) fun _ =>
    .bind (Tot.par (.skipContent hs hat)) fun _ r hr => .pure ⟨hi.1, by omega⟩
  rintro a r ⟨ha, hr⟩
  refine .pure ⟨fun u hu o ho l hl => ?_, by omega⟩
  injection hu with hu
  subst hu
  have := ha o ho l hl
  omega

theorem topWalk_room (hs : SaneB e F) {len : Nat} : ∀ f parsed p, Par e F p (topWalk len f parsed) fun m _ =>
    ∀ u, m.udta = some u → ∀ o, u = some o → ∀ l, o = some l → entriesSize l + (p + 36) ≤ F.length + 4 := by
  intro f
  induction f with
  | zero => intro parsed p a q h; simp [topWalk, outOfFuel] at h
  | succ f ih =>
    intro parsed p
    rw [topWalk]
    refine .ite (fun _ => .fail) fun _ => ?_
    refine .bind (.parseHead (Q := fun hd q => HeadOf F p hd ∧ q = p + hd.size.headLen) fun hd h => ⟨h, rfl⟩) ?_
    rintro hd _ ⟨hat, rfl⟩
    refine .ite (fun hf => parseMoov_room hs hat) fun _ => ?_
    refine .bind (Tot.par (.skipContent hs hat)) fun _ q hq => ?_
    refine .bind (.E (Q := fun _ r => q = r) fun _ _ => rfl) ?_
    rintro n _ rfl
    refine (ih n q).mono fun m _ hm u hu o ho l hl => ?_
    have := hm u hu o ho l hl
    omega

theorem readTag_room (hs : SaneB e F) {pos : Nat} {t : Tag} (h : readTag e F pos = .ok t) :
    t.atoms = [] ∨ entriesSize t.atoms + (pos + 40) ≤ F.length := by
  have hp : Par e F pos readTagP fun t _ => t.atoms = [] ∨ entriesSize t.atoms + (pos + 40) ≤ F.length := by
    refine .bind (Q := fun _ q => pos + 8 ≤ q ∧ q ≤ F.length) ?_ ?_
    · refine fun a q hm => ⟨?_, (parseFtyp_tot (pn := True) hs pos).par a q hm⟩
      have : Par e F pos parseFtyp fun _ q => pos + 8 ≤ q := by
        refine .bind (.parseHead (Q := fun hd q => q = pos + hd.size.headLen) fun hd h => rfl) ?_
        rintro hd _ rfl
        have := headLen_ge hd.size
        refine .ite (fun _ => .fail) fun _ => .bind (.E (Q := fun _ q => q = pos + hd.size.headLen) fun _ _ => rfl) ?_
        rintro n _ rfl
        exact .readUtf8 fun _ _ _ _ => by omega
      exact this a q hm
    · rintro s q ⟨h1, h2⟩
      refine .bind (remaining_tot (pn := True) h2).par ?_
      rintro n _ ⟨-, rfl⟩
      refine .bind (Q := fun _ r => q = r) (Tot.par (.getFuel rfl)) ?_
      rintro f _ rfl
      refine .bind (topWalk_room hs _ _ _) fun m r hm => .pure ?_
      have : (mkTag s m).atoms = ((m.udta.bind id).bind id).getD [] := rfl
      rw [this]
      cases hx : (m.udta.bind id).bind id with
      | none => exact .inl rfl
      | some l =>
        simp only [Option.bind_eq_some_iff, id] at hx
        obtain ⟨o, ⟨u, h3, h4⟩, h5⟩ := hx
        have := hm u h3 o h4 l h5
        right
        show entriesSize l + (pos + 40) ≤ F.length
        omega
  unfold readTag at h
  cases hm : readTagP e F pos with
  | ok x => rw [hm] at h; injection h with h; exact h ▸ hp x.1 x.2 hm
  | err => rw [hm] at h; simp [Out.val] at h
  | panic => rw [hm] at h; simp [Out.val] at h
  | fuel => rw [hm] at h; simp [Out.val] at h

end
end Mp4
