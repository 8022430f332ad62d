import Verif.Proof.Fill
import Verif.Proof.Patch
/-
The bytes around the item list depend only on its length, the bytes around a value within the item list only on the type and the length of
the value.
-/
namespace Mp4
open Spec

/-- For all `x` with `q x`, the bytes `F x` are `p x` with the same bytes around. -/
def Around {α : Type} (q : α → Prop) (p F : α → Bytes) : Prop := ∃ A B, ∀ x, q x → F x = A ++ p x ++ B

theorem Around.refl {α} (q : α → Prop) (p : α → Bytes) : Around q p p := ⟨[], [], fun x _ => by simp⟩

theorem Around.wrap {α} {q : α → Prop} {p F : α → Bytes} (h : Around q p F) (C D : Bytes) : Around q p (fun x => C ++ F x ++ D) := by
  obtain ⟨A, B, h⟩ := h
  exact ⟨C ++ A, B ++ D, fun x hx => by simp only [h x hx, List.append_assoc]⟩

theorem Around.congr {α} {q : α → Prop} {p F G : α → Bytes} (h : Around q p F) (hg : ∀ x, q x → G x = F x) : Around q p G := by
  obtain ⟨A, B, h⟩ := h
  exact ⟨A, B, fun x hx => by rw [hg x hx, h x hx]⟩

theorem Around.trans {α} {q : α → Prop} {p F G : α → Bytes} (h : Around q p F) (hg : Around q F G) : Around q p G := by
  obtain ⟨A, B, h⟩ := h
  obtain ⟨C, D, hg⟩ := hg
  exact ⟨C ++ A, B ++ D, fun x hx => by simp only [hg x hx, h x hx, List.append_assoc]⟩

theorem Around.length {α} {q : α → Prop} {p F : α → Bytes} {n : Nat} (h : Around q p F) (hn : ∀ x, q x → (p x).length = n) :
    ∃ m, ∀ x, q x → (F x).length = m := by
  obtain ⟨A, B, h⟩ := h
  refine ⟨A.length + n + B.length, fun x hx => ?_⟩
  rw [h x hx, List.length_append, List.length_append, hn x hx]

/-- An atom around it, of which the form of the size may depend on the length of the content. -/
theorem Around.box {α} {q : α → Prop} {p F : α → Bytes} {n : Nat} (h : Around q p F) (hn : ∀ x, q x → (p x).length = n) (ext : Nat → Bool)
    (fc : Fourcc) : Around q p (fun x => (Box.mk (ext (F x).length) fc (F x)).ser) := by
  obtain ⟨m, hm⟩ := h.length hn
  refine (h.wrap (Box.mk (ext m) fc (List.replicate m 0)).head []).congr fun x hx => ?_
  simp only [Box.ser, Box.head, hm x hx, List.length_replicate, List.append_nil]

theorem around_meta (n : Nat) (m : Meta) : Around (fun ib : Box => ib.ser.length = n) Box.ser (fun ib => (m.fill ib).ser) := by
  have hnew : ∀ b : Prop, [Decidable b] → Around (fun ib : Box => ib.ser.length = n) Box.ser
      (fun ib => serL id (if b then [ib] else [hdlrBox, ib])) := by
    intro b _
    by_cases h : b
    · exact (Around.refl _ _).congr fun x _ => by simp [h, serL]
    · exact ((Around.refl _ _).wrap hdlrBox.ser []).congr fun x _ => by simp [h, serL]
  rcases last_split (fun b : Box => b.fc = cc 'i' 'l' 's' 't') m.kids with hno | ⟨A, k, B, hks, hk, hB⟩
  · refine ((hnew (∃ b ∈ m.kids, b.fc = cc 'h' 'd' 'l' 'r')).wrap (0 :: m.flags ++ serL id m.kids) []).congr fun x _ => ?_
    simp only [Meta.fill, Meta.ser]
    rw [updLast_none (fun k hk => by simp [hno k hk])]
    simp [serL]
  · refine ((hnew (∃ b ∈ m.kids, b.fc = cc 'h' 'd' 'l' 'r')).wrap (0 :: m.flags ++ serL id A) (serL id B)).congr fun x _ => ?_
    simp only [Meta.fill, Meta.ser]
    generalize (if ∃ b ∈ m.kids, b.fc = cc 'h' 'd' 'l' 'r' then [x] else [hdlrBox, x]) = new
    rw [hks, updLast_split (f := fun b : Box => if b.fc = cc 'i' 'l' 's' 't' then some new else none) (ys := new) (by simp [hk]) (fun y hy => by simp [hB y hy])]
    simp [serL]

theorem around_newUdta (n : Nat) : Around (fun ib : Box => ib.ser.length = n) Box.ser (fun ib => (newUdtaB ib).ser) := by
  have h1 : Around (fun ib : Box => ib.ser.length = n) Box.ser (fun ib => (newMetaB ib).ser) :=
    ((Around.refl _ _).wrap ([0, 0, 0, 0] ++ hdlrBox.ser) []).congr fun x _ => by simp [newMetaB, Meta.ser, serL]
  exact (h1.box (fun _ h => h) (fun k => decide (2^32 ≤ k + 8)) (cc 'm' 'e' 't' 'a')).congr fun x _ => by
    simp [newUdtaB, Udta.ser, serL, metaKid, Kid.box]

theorem around_udta (n : Nat) (u : Udta) : Around (fun ib : Box => ib.ser.length = n) Box.ser (fun ib => (u.fill ib).ser) := by
  rcases last_split (fun k : Kid Meta => ∃ ext m, k = .node ext m) u with hno | ⟨A, k, B, rfl, ⟨ext, m, rfl⟩, hB⟩
  · refine ((around_newUdta n).wrap u.ser []).congr fun x _ => ?_
    rw [Udta.fill, updLast_none (fun k hk => by
      cases k with
      | node e m => exact absurd ⟨e, m, rfl⟩ (hno _ hk)
      | raw b => rfl)]
    simp [Udta.ser, serL, newUdtaB]
  · refine (((around_meta n m).box (fun _ h => h) (fun _ => ext) (cc 'm' 'e' 't' 'a')).wrap (Udta.ser A) (Udta.ser B)).congr fun x _ => ?_
    rw [Udta.fill, updLast_split (ys := [.node ext (m.fill x)]) rfl (fun y hy => by
      cases y with
      | node e m => exact absurd ⟨e, m, rfl⟩ (hB _ hy)
      | raw b => rfl)]
    simp [Udta.ser, serL, Kid.box]

theorem around_fillUdta (n : Nat) (g : Spec.Trak → Spec.Trak) (m : Spec.Moov) :
    (∀ ib, Moov.fillUdta g ib m = none) ∨
    ∃ r : Box → Spec.Moov, (∀ ib, Moov.fillUdta g ib m = some (r ib)) ∧ Around (fun ib : Box => ib.ser.length = n) Box.ser (fun ib => (r ib).ser) := by
  induction m with
  | nil => exact .inl fun _ => rfl
  | cons k ks ih =>
    rcases ih with h | ⟨r, h, ha⟩
    · cases k with
      | trak ext t => exact .inl fun ib => by simp only [Moov.fillUdta, h]
      | raw b => exact .inl fun ib => by simp only [Moov.fillUdta, h]
      | udta ext u =>
        refine .inr ⟨fun ib => .udta ext (u.fill ib) :: ks, fun ib => by simp only [Moov.fillUdta, h], ?_⟩
        refine (((around_udta n u).box (fun _ h => h) (fun _ => ext) (cc 'u' 'd' 't' 'a')).wrap [] (Moov.ser ks)).congr fun x _ => ?_
        simp [Moov.ser, serL, MoovKid.box]
    · refine .inr ⟨fun ib => k.mapTrak g :: r ib, fun ib => by simp only [Moov.fillUdta, h], ?_⟩
      refine (ha.wrap (MoovKid.box (k.mapTrak g)).ser []).congr fun x _ => ?_
      simp [Moov.ser, serL]

theorem around_moov (n : Nat) (g : Spec.Trak → Spec.Trak) (m : Spec.Moov) :
    Around (fun ib : Box => ib.ser.length = n) Box.ser (fun ib => (m.fill g ib).ser) := by
  rcases around_fillUdta n g m with h | ⟨r, h, ha⟩
  · refine (((around_newUdta n).box (fun _ h => h) (fun k => decide (2^32 ≤ k + 8)) (cc 'u' 'd' 't' 'a')).wrap
      (Moov.ser (m.map (MoovKid.mapTrak g))) []).congr fun x _ => ?_
    rw [Moov.fill, h]
    simp [Moov.ser, serL, udtaKid, MoovKid.box]
  · exact ha.congr fun x _ => by rw [Moov.fill, h]; rfl

/-- The bytes around the item list depend only on its length. -/
theorem around_file (n : Nat) (f : File) : Around (fun ib : Box => ib.ser.length = n) Box.ser (fun ib => (f.fill ib).ser) := by
  obtain ⟨m, hm⟩ := (around_moov n id f.moov).length fun _ h => h
  have ha := around_moov n (if f.MediaBehind then Spec.Trak.shift ((m : Int) - f.moov.ser.length) else id) f.moov
  refine ((ha.box (fun _ h => h) (fun _ => f.moovExt) (cc 'm' 'o' 'o' 'v')).wrap (f.ftypBox.ser ++ serL id f.pre) (serL id f.post)).congr fun x hx => ?_
  have : f.growthB x = (m : Int) - f.moov.ser.length := by rw [File.growthB, hm x hx]
  simp only [File.ser, File.fill, File.moovBox, this]
  simp only [File.ftypBox]

/-- The bytes around a value in its item depend only on its type and length. -/
theorem around_entry (i : DataIdent) (ds es : List Data) (c n : Nat) :
    Around (fun d => typeCode d = c ∧ (payload d).length = n) payload (fun d => (entryOf ⟨i, ds ++ d :: es⟩).box.ser) := by
  have h1 : Around (fun d => typeCode d = c ∧ (payload d).length = n) payload (fun d => (dataPart d).box.ser) :=
    (((Around.refl _ _).wrap (be32 c ++ [0, 0, 0, 0]) []).box (n := n) (fun _ h => h.2) (fun _ => false) (cc 'd' 'a' 't' 'a')).congr fun x hx => by
      simp [dataPart, Part.box, hx.1]
  cases i with
  | fourcc fc =>
    exact ((h1.wrap (serL Part.box (ds.map dataPart)) (serL Part.box (es.map dataPart))).box (n := n) (fun _ h => h.2) (fun _ => false) fc).congr
      fun x hx => by simp [entryOf, Entry.box, serL]
  | freeform mean name =>
    exact ((h1.wrap ((Part.mean false [0, 0, 0] mean).box.ser ++ (Part.name false [0, 0, 0] name).box.ser ++ serL Part.box (ds.map dataPart))
      (serL Part.box (es.map dataPart))).box (n := n) (fun _ h => h.2) (fun _ => false) (cc '-' '-' '-' '-')).congr
      fun x hx => by simp [entryOf, Entry.box, serL]

/-- The bytes around a value in the item list depend only on its type and length. -/
theorem around_value (L R : List AtomData) (i : DataIdent) (ds es : List Data) (c n : Nat) :
    Around (fun d => typeCode d = c ∧ (payload d).length = n) payload (fun d => (ilstBox (L ++ ⟨i, ds ++ d :: es⟩ :: R)).ser) :=
  (((around_entry i ds es c n).wrap (serL Entry.box (L.map entryOf)) (serL Entry.box (R.map entryOf))).box (n := n) (fun _ h => h.2)
    (fun k => decide (2^32 ≤ k + 8)) (cc 'i' 'l' 's' 't')).congr fun x hx => by simp [ilstBox, mkBox, serL]

/-- The bytes around an item depend only on its length. -/
theorem around_item (L R : List AtomData) (n : Nat) :
    Around (fun a => (entryOf a).box.ser.length = n) (fun a => (entryOf a).box.ser) (fun a => (ilstBox (L ++ a :: R)).ser) :=
  (((Around.refl _ _).wrap (serL Entry.box (L.map entryOf)) (serL Entry.box (R.map entryOf))).box (n := n) (fun _ h => h)
    (fun k => decide (2^32 ≤ k + 8)) (cc 'i' 'l' 's' 't')).congr fun x hx => by simp [ilstBox, mkBox, serL]

/-- From the item list to the file. -/
theorem Around.put {α} {q : α → Prop} {p : α → Bytes} {l : α → List AtomData} {n : Nat} (h : Around q p (fun x => (ilstBox (l x)).ser))
    (hn : ∀ x, q x → (p x).length = n) (X : Bytes) (f : File) : Around q p (fun x => X ++ (f.put (l x)).ser) := by
  obtain ⟨m, hm⟩ := h.length hn
  obtain ⟨A, B, hf⟩ := around_file m f
  refine (h.wrap (X ++ A) B).congr fun x hx => ?_
  have hf' : (f.fill (ilstBox (l x))).ser = A ++ (ilstBox (l x)).ser ++ B := hf _ (hm x hx)
  rw [← fill_put, hf']
  simp only [List.append_assoc]

end Mp4
