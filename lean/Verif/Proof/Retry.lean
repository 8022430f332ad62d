import Verif.Spec.Retry
import Verif.Proof.InPlace
/-
The place of the item list: what a save makes of the file does not depend on what is in it.
-/
namespace Mp4
open Spec

/-! ### Bytes -/

/-- `F` puts its argument, if that has `n` bytes, between fixed bytes. -/
def Window (n : Nat) (F : Bytes → Bytes) : Prop := ∃ L R, ∀ c, c.length = n → F c = L ++ c ++ R

theorem Window.wrap {n : Nat} {F : Bytes → Bytes} (h : Window n F) (A B : Bytes) : Window n (fun c => A ++ F c ++ B) := by
  obtain ⟨L, R, h⟩ := h
  exact ⟨A ++ L, R ++ B, fun c hc => by dsimp only; rw [h c hc]; simp only [List.append_assoc]⟩

theorem Window.len {n : Nat} {F : Bytes → Bytes} (h : Window n F) {b b' : Bytes} (hb : b.length = n) (hb' : b'.length = n) :
    (F b).length = (F b').length := by
  obtain ⟨L, R, h⟩ := h
  rw [h b hb, h b' hb']
  simp only [List.length_append]; omega

theorem Window.box {n : Nat} {F : Bytes → Bytes} (h : Window n F) (ext : Bool) (fc : Fourcc) : Window n (fun c => (⟨ext, fc, F c⟩ : Box).ser) := by
  have h0 : (List.replicate n (0 : UInt8)).length = n := List.length_replicate
  obtain ⟨L, R, h1⟩ := h.wrap (⟨ext, fc, F (List.replicate n 0)⟩ : Box).head []
  refine ⟨L, R, fun c hc => ?_⟩
  rw [← h1 c hc]
  dsimp only
  rw [List.append_nil]
  show (⟨ext, fc, F c⟩ : Box).head ++ F c = _
  congr 1
  unfold Box.head
  simp only [h.len hc h0]

theorem Window.kids {κ : Type} {box : κ → Box} {n : Nat} {k : Bytes → κ} (h : Window n (fun c => (box (k c)).ser)) (A B : List κ) :
    Window n (fun c => serL box (A ++ k c :: B)) := by
  obtain ⟨L, R, h⟩ := h.wrap (serL box A) (serL box B)
  refine ⟨L, R, fun c hc => ?_⟩
  rw [← h c hc]
  dsimp only
  rw [serL_append, serL_cons, List.append_assoc]

theorem place_window (p : Slot) (n : Nat) : Window n (fun b => (p.moov (shortIlst b)).ser) := by
  have h0 : Window n (fun b => b) := ⟨[], [], fun c _ => by simp⟩
  have h1 : Window n (fun b => (id (shortIlst b)).ser) := h0.box _ _
  have h2 : Window n (fun b => (p.metaAt (shortIlst b)).ser) := by
    have := (h1.kids (κ := Box) (box := id) p.mkids p.mkids').wrap (0 :: p.flags) []
    simp only [List.append_nil] at this
    exact this
  have h3 : Window n (fun b => (p.udtaAt (shortIlst b)).ser) :=
    Window.kids (box := Kid.box (cc 'm' 'e' 't' 'a') Meta.ser) (k := fun b => .node p.metaExt (p.metaAt (shortIlst b))) (h2.box _ _) _ _
  exact Window.kids (box := MoovKid.box) (k := fun b => .udta p.udtaExt (p.udtaAt (shortIlst b))) (h3.box _ _) _ _

/-! ### The tree -/

theorem place_put {p : Slot} (hp : p.Last) (g : Spec.Trak → Spec.Trak) (atoms : List AtomData) (b : Bytes) :
    (p.moov (shortIlst b)).put g atoms = Slot.moov { p with kids := p.kids.map (MoovKid.mapTrak g) } (ilstBox atoms) := by
  obtain ⟨h1, ⟨x, hx, hxf⟩, h3, h4⟩ := hp
  have hm : (p.metaAt (shortIlst b)).put atoms = p.metaAt (ilstBox atoms) := by
    unfold Meta.put
    have hc : ∃ c ∈ (p.metaAt (shortIlst b)).kids, c.fc = cc 'h' 'd' 'l' 'r' := by
      refine ⟨x, ?_, hxf⟩
      show x ∈ p.mkids ++ shortIlst b :: p.mkids'
      rcases List.mem_append.mp hx with h | h <;> simp [h]
    simp only [if_pos hc]
    have hu : updLast (fun c : Box => if c.fc = cc 'i' 'l' 's' 't' then some [ilstBox atoms] else none) (p.metaAt (shortIlst b)).kids
        = some (p.mkids ++ [ilstBox atoms] ++ p.mkids') :=
      updLast_split (if_pos rfl) fun y hy => if_neg (h1 y hy)
    rw [hu]
    simp [Slot.metaAt]
  have hu : (p.udtaAt (shortIlst b)).put atoms = p.udtaAt (ilstBox atoms) := by
    unfold Udta.put Slot.udtaAt
    rw [updLast_split (A := p.ukids) (k := Kid.node p.metaExt (p.metaAt (shortIlst b))) (B := p.ukids') rfl ?_]
    · simp [hm]
    · intro y hy
      have := h3 y hy
      cases y with
      | node _ _ => cases this
      | raw _ => rfl
  have hk : ∀ y ∈ p.kids', ¬ isUdta y := by
    intro y hy
    cases y with
    | udta ext u => exact absurd rfl (h4 _ hy ext u)
    | _ => exact id
  unfold Moov.put Slot.moov
  rw [putUdta_split hk, hu]
  rfl

theorem place_len (p : Slot) : ∃ n, ∀ c : Box, (p.moov c).ser.length = n + c.ser.length := by
  refine ⟨(p.moov ⟨false, cc 'i' 'l' 's' 't', []⟩).ser.length - 8, fun c => ?_⟩
  simp only [Slot.moov, Spec.Moov.ser, serL_append, serL_cons, List.length_append, Box.ser_length, MoovKid.box, Box.headLen, Slot.udtaAt, Udta.ser,
    Kid.box, Slot.metaAt, Meta.ser, List.length_cons, List.length_nil, id]
  simp only [Bool.false_eq_true, if_false]
  omega

/-- The new item list takes as much as the old one. -/
theorem place_growth {p : Slot} (hp : p.Last) {atoms : List AtomData} {b : Bytes} (hb : b.length + 8 < 2^32) :
    (((p.moov (shortIlst b)).put id atoms).ser.length : Int) - (p.moov (shortIlst b)).ser.length = 0 ↔
      ∃ b', b'.length = b.length ∧ ilstBox atoms = shortIlst b' := by
  rw [place_put hp, mapTrak_id]
  show ((p.moov (ilstBox atoms)).ser.length : Int) - _ = 0 ↔ _
  obtain ⟨n, hn⟩ := place_len p
  have hn1 := hn (ilstBox atoms)
  have hn2 := hn (shortIlst b)
  rw [Box.ser_length] at hn1 hn2
  have h2 : (shortIlst b).headLen = 8 := rfl
  have h3 : (shortIlst b).body.length = b.length := rfl
  generalize hB : serL Entry.box (atoms.map entryOf) = B
  have hi : ilstBox atoms = ⟨decide (2^32 ≤ B.length + 8), cc 'i' 'l' 's' 't', B⟩ := by rw [← hB]; rfl
  rw [hi] at hn1 ⊢
  constructor
  · intro h
    have h5 : B.length + 8 < 2^32 := by
      refine Nat.lt_of_not_le fun hge => ?_
      have h4 : (⟨decide (2^32 ≤ B.length + 8), cc 'i' 'l' 's' 't', B⟩ : Box).headLen = 16 := by simp [Box.headLen, hge]
      rw [h4] at hn1
      dsimp only at hn1
      omega
    have h4 : decide (2^32 ≤ B.length + 8) = false := by simp; omega
    rw [h4] at hn1 h ⊢
    have h6 : (⟨false, cc 'i' 'l' 's' 't', B⟩ : Box).headLen = 8 := rfl
    rw [h6] at hn1
    dsimp only at hn1
    exact ⟨B, by omega, rfl⟩
  · rintro ⟨b', hl, he⟩
    rw [he] at hn1 ⊢
    have h6 : (shortIlst b').headLen = 8 := rfl
    have h7 : (shortIlst b').body.length = b'.length := rfl
    omega

theorem place_mem {p : Slot} {b : Box} {k : MoovKid} (h : k ∈ p.moov b) : k = .udta p.udtaExt (p.udtaAt b) ∨ ∀ c, k ∈ p.moov c := by
  rcases List.mem_append.mp h with h | h
  · exact .inr fun c => by simp [Slot.moov, h]
  · rcases List.mem_cons.mp h with h | h
    · exact .inl h
    · exact .inr fun c => by simp [Slot.moov, h]

theorem fits_len {ext : Bool} {fc : Fourcc} {F G : Bytes} (h : F.length = G.length) (hf : (⟨ext, fc, F⟩ : Box).Fits) : (⟨ext, fc, G⟩ : Box).Fits := by
  intro he
  have := hf he
  dsimp only at this ⊢
  omega

theorem place_WF {p : Slot} {b b' : Bytes} (hl : b.length = b'.length) (h : (p.moov (shortIlst b)).WF) : (p.moov (shortIlst b')).WF := by
  have hbl : (shortIlst b).ser.length = (shortIlst b').ser.length := by
    rw [Box.ser_length, Box.ser_length]
    show 8 + b.length = 8 + b'.length
    omega
  have hml : (p.metaAt (shortIlst b)).ser.length = (p.metaAt (shortIlst b')).ser.length := by
    simp only [Slot.metaAt, Meta.ser, List.length_cons, List.length_append, serL_append, serL_cons, id, hbl]
  have hul : (p.udtaAt (shortIlst b)).ser.length = (p.udtaAt (shortIlst b')).ser.length := by
    simp only [Slot.udtaAt, Udta.ser, List.length_append, serL_append, serL_cons, Box.ser_length, Kid.box, hml, Box.headLen]
  intro k hk
  rcases place_mem hk with rfl | hk
  · obtain ⟨h1, h2⟩ := h (.udta p.udtaExt (p.udtaAt (shortIlst b))) (by simp [Slot.moov])
    refine ⟨fits_len hul h1, ?_⟩
    intro x hx
    rcases List.mem_append.mp hx with hx | hx
    · exact h2 x (by simp [Slot.udtaAt, hx])
    · rcases List.mem_cons.mp hx with rfl | hx
      · obtain ⟨h3, h4, h5⟩ := h2 (.node p.metaExt (p.metaAt (shortIlst b))) (by simp [Slot.udtaAt])
        refine ⟨fits_len hml h3, h4, ?_⟩
        intro y hy
        rcases List.mem_append.mp hy with hy | hy
        · exact h5 y (by simp [Slot.metaAt, hy])
        · rcases List.mem_cons.mp hy with rfl | hy
          · exact fits_len hl (h5 (shortIlst b) (by simp [Slot.metaAt]))
          · exact h5 y (by simp [Slot.metaAt, hy])
      · exact h2 x (by simp [Slot.udtaAt, hx])
  · exact h k (hk _)

/-- `f` with another body of the item list. -/
def Spec.File.at (f : File) (p : Slot) (b : Bytes) : File := { f with moov := p.moov (shortIlst b) }

theorem file_at {f : File} {p : Slot} {b : Bytes} (h : f.InPlace p b) : f.at p b = f := by
  unfold Spec.File.at
  rw [← h.2]

theorem at_window (f : File) (p : Slot) (X : Bytes) (n : Nat) : Window n (fun b => X ++ (f.at p b).ser) := by
  obtain ⟨L, R, h⟩ := ((place_window p n).box f.moovExt (cc 'm' 'o' 'o' 'v')).wrap (X ++ f.ftypBox.ser ++ serL id f.pre) (serL id f.post)
  refine ⟨L, R, fun c hc => ?_⟩
  rw [← h c hc]
  show X ++ (f.ftypBox.ser ++ serL id f.pre ++ (⟨f.moovExt, cc 'm' 'o' 'o' 'v', (p.moov (shortIlst c)).ser⟩ : Box).ser ++ serL id f.post) = _
  simp only [List.append_assoc]

theorem at_WF {f : File} {p : Slot} {b b' : Bytes} (hl : b.length = b'.length) (h : (f.at p b).WF) : (f.at p b').WF := by
  obtain ⟨h1, h2, h3, h4, h5⟩ := h
  exact ⟨h1, fits_len ((place_window p b.length).len rfl hl.symm) h2, place_WF hl h3, h4, h5⟩

theorem at_growth {f : File} {p : Slot} (hp : p.Last) {b b' : Bytes} (hl : b.length = b'.length) (atoms : List AtomData) :
    (f.at p b').growth atoms = (f.at p b).growth atoms := by
  unfold Spec.File.growth Spec.File.at
  rw [place_put hp, place_put hp, (place_window p b.length).len rfl hl.symm]

theorem at_put {f : File} {p : Slot} (hp : p.Last) {b b' : Bytes} (hl : b.length = b'.length) (atoms : List AtomData) :
    (f.at p b').put atoms = (f.at p b).put atoms := by
  unfold Spec.File.put
  rw [at_growth hp hl]
  have hm : (f.at p b').MediaBehind = (f.at p b).MediaBehind := rfl
  simp only [hm]
  unfold Spec.File.at
  simp only [place_put hp]

theorem at_tables {f : File} {p : Slot} {b b' : Bytes} (h : (f.at p b).MediaBehind → (f.at p b).moov.Tables) :
    (f.at p b').MediaBehind → (f.at p b').moov.Tables := by
  intro hm ext t ht
  rcases place_mem ht with h1 | h1
  · cases h1
  · exact h hm ext t (h1 _)

/-- If the file keeps its length, the new file is the old one with another body. -/
theorem at_new {f : File} {p : Slot} (hp : p.Last) {b : Bytes} {atoms : List AtomData} (hw : (f.at p b).WF)
    (ht : (f.at p b).MediaBehind → (f.at p b).moov.Tables) (hg : (f.at p b).growth atoms = 0) :
    ∃ b', b'.length = b.length ∧ (f.at p b).put atoms = f.at p b' := by
  have hb : b.length + 8 < 2^32 := by
    obtain ⟨-, -, h3, -⟩ := hw
    obtain ⟨-, h4⟩ := h3 (.udta p.udtaExt (p.udtaAt (shortIlst b))) (by simp [Spec.File.at, Slot.moov])
    obtain ⟨-, -, h5⟩ := h4 (.node p.metaExt (p.metaAt (shortIlst b))) (by simp [Slot.udtaAt])
    exact h5 (shortIlst b) (by simp [Slot.metaAt]) rfl
  obtain ⟨b', hl, hi⟩ := (place_growth (atoms := atoms) hp hb).mp hg
  refine ⟨b', hl, ?_⟩
  have hid : p.kids.map (MoovKid.mapTrak (if (f.at p b).MediaBehind then Spec.Trak.shift ((f.at p b).growth atoms) else id)) = p.kids := by
    split
    · rename_i hmb
      conv => rhs; rw [← List.map_id p.kids]
      refine List.map_congr_left fun k hk => ?_
      cases k with
      | trak ext t =>
        show MoovKid.trak ext (Spec.Trak.shift ((f.at p b).growth atoms) t) = .trak ext t
        rw [hg, trak_shift_zero (ht hmb ext t (by simp [Spec.File.at, Slot.moov, hk]))]
      | _ => rfl
    · exact mapTrak_id _
  unfold Spec.File.put
  generalize (if (f.at p b).MediaBehind then Spec.Trak.shift ((f.at p b).growth atoms) else id) = g at hid
  unfold Spec.File.at
  simp only [place_put hp, hid, hi]

end Mp4
