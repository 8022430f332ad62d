import Verif.Proof.Dump
import Verif.Proof.Provenance
/-
What is read from a dump with UTF-16 texts, whose sizes are those of half the texts.
-/
namespace Mp4
open Spec

/-! ### What is emitted -/

/-- The head of an atom that claims `n` bytes of content. -/
def claim (fc : Fourcc) (n : Nat) : Box := mkBox fc (List.replicate n 0)

theorem claim_hd (fc : Fourcc) (n : Nat) : (claim fc n).hd = ⟨Size.ofContent n, fc⟩ := by
  rw [claim, mkBox_hd, List.length_replicate]

theorem claim_emits (fc : Fourcc) (n : Nat) : Emits (writeHead ⟨Size.ofContent n, fc⟩) (claim fc n).head := by
  rw [← claim_hd]; exact writeHead_emits _

def small (fc : Fourcc) (n : Nat) : Box := ⟨false, fc, List.replicate n 0⟩

theorem small_head (fc : Fourcc) (n : Nat) : (small fc n).head = be32 (n + 8) ++ fc.bytes := by
  rw [Box.head]; simp [small]

theorem small_hd (fc : Fourcc) (n : Nat) : (small fc n).hd = ⟨⟨false, 8 + n⟩, fc⟩ := by
  simp [Box.hd, Box.size, Box.headLen, small]

/-- A `data` atom as it is written: the size counts the units of UTF-16 texts. -/
def dataRaw (d : Data) : Bytes := (small DATA (8 + d.len)).head ++ (be32 (typeCode d) ++ [0, 0, 0, 0] ++ payload d)

theorem dataLen_le (d : Data) : d.len ≤ (payload d).length := by
  cases d with
  | utf16 s =>
    show (utf16Enc s).length ≤ (utf16be s).length
    rw [utf16be_spec]
    generalize utf16Enc s = l
    induction l with
    | nil => exact Nat.le_refl _
    | cons x l ih => simp only [Mp4.be16, List.flatMap_cons, List.length_append, toBe_length, List.length_cons] at ih ⊢; omega
  | utf8 s => show (utf8Enc s).length ≤ (utf8 s).length; rw [utf8Enc_spec]; exact Nat.le_refl _
  | _ => exact Nat.le_refl _

theorem dataRaw_eq {d : Data} (h : noUtf16Text d) : dataRaw d = (dataPart d).box.ser := by
  rw [dataRaw, small_head, Box.ser, Box.head, dataLen_eq h]
  have hl : (be32 (typeCode d) ++ [0, 0, 0, 0] ++ payload d).length = 8 + (payload d).length := by simp [be32_length]; omega
  simp only [dataPart, Part.box, Bool.false_eq_true, if_false, hl]
  rfl

theorem writeDataAtom_raw {d : Data} (hf : 16 + d.len < 2^32) : Emits (writeDataAtom d) (dataRaw d) := by
  unfold writeDataAtom
  refine Emits.wr (a := 16 + d.len) (fun e => ?_) ?_
  · rw [addU32, Nat.mod_eq_of_lt (by omega), if_pos hf]
  · unfold Data.writeTyped
    refine ((Emits.emit _).seq ((Emits.emit _).seq ((Emits.emit _).seq ((Emits.emit _).seq (writeRaw_emits d))))).eq ?_
    rw [toBe4, toBe4, dataCode_eq, dataRaw, small_head, show 8 + d.len + 8 = 16 + d.len by omega]
    simp

/-- The `mean` and `name` of an identifier. -/
def texts : DataIdent → List Part
  | .fourcc _ => []
  | .freeform m n => [.mean false [0, 0, 0] m, .name false [0, 0, 0] n]

def identFc : DataIdent → Fourcc
  | .fourcc f => f
  | .freeform _ _ => cc '-' '-' '-' '-'

theorem entryOf_eq (a : AtomData) : entryOf a = .item false (identFc a.ident) (texts a.ident ++ a.data.map dataPart) := by
  unfold entryOf
  cases a.ident <;> rfl

theorem texts_wf {a : AtomData} (h : (entryOf a).box.Fits) {p : Part} (hp : p ∈ texts a.ident) : p.WF := by
  rw [entryOf_eq] at h
  refine ⟨part_fits_of_item (List.mem_append_left _ hp) rfl h, ?_⟩
  cases hi : a.ident with
  | fourcc => rw [hi] at hp; cases hp
  | freeform m n =>
    rw [hi] at hp
    simp only [texts, List.mem_cons, List.not_mem_nil, or_false] at hp
    rcases hp with rfl | rfl <;> rfl

theorem data_wf {a : AtomData} (h : (entryOf a).box.Fits) {d : Data} (hd : d ∈ a.data) : (dataPart d).WF := by
  rw [entryOf_eq] at h
  exact ⟨part_fits_of_item (List.mem_append_right _ (List.mem_map_of_mem hd)) rfl h, rfl, payload_enc⟩

/-- The length an entry claims for the content of its item. -/
def claimed (a : AtomData) : Nat := (serL Part.box (texts a.ident)).length + (a.data.map fun d => 16 + d.len).sum

theorem claimed_len (a : AtomData) : a.len = 8 + claimed a := by
  unfold AtomData.len claimed texts
  cases a.ident with
  | fourcc f => simp [serL_nil]
  | freeform m n =>
    simp only [utf8Enc_spec, serL_cons, serL_nil, List.length_append, Box.ser_length, Box.headLen, Part.box, Bool.false_eq_true, if_false,
      List.length_cons, List.length_nil, List.cons_append]
    omega

def itemRaw (a : AtomData) : Bytes :=
  (small (identFc a.ident) (claimed a)).head ++ (serL Part.box (texts a.ident) ++ a.data.flatMap dataRaw)

theorem claimed_le (a : AtomData) : claimed a ≤ (entryOf a).box.body.length := by
  rw [entryOf_eq]
  simp only [Entry.box, claimed, serL_append, List.length_append]
  have : (a.data.map fun d => 16 + d.len).sum ≤ (serL Part.box (a.data.map dataPart)).length := by
    induction a.data with
    | nil => exact Nat.le_refl _
    | cons d ds ih =>
      have := dataLen_le d
      simp only [List.map_cons, List.sum_cons, serL_cons, List.length_append, dataPart_len]
      omega
  omega

theorem entry_lt {a : AtomData} (h : (entryOf a).box.Fits) : (entryOf a).box.body.length + 8 < 2^32 := by
  have hext : (entryOf a).box.ext = false := by rw [entryOf_eq]; rfl
  exact h hext

theorem atomWrite_raw {a : AtomData} (h : (entryOf a).box.Fits) : Emits a.write (itemRaw a) := by
  have hlt := entry_lt h
  have hd : Emits (wrAll writeDataAtom a.data) (a.data.flatMap dataRaw) := by
    refine Emits.wrAll _ (fun d hd => writeDataAtom_raw ?_)
    have h1 := (data_wf h hd).1 rfl
    have h2 := dataLen_le d
    simp only [dataPart, Part.box, List.length_append, be32_length, List.length_cons, List.length_nil] at h1
    omega
  unfold AtomData.write
  rw [claimed_len, itemRaw, small_head]
  cases hi : a.ident with
  | fourcc f =>
    refine ((Emits.emit _).seq ((Emits.emit _).seq hd)).eq ?_
    rw [toBe4, Nat.add_comm 8]
    simp [texts, identFc, serL_nil]
  | freeform m n =>
    have hm := (texts_wf h (p := .mean false [0, 0, 0] m) (by rw [hi]; simp [texts])).1 rfl
    have hn := (texts_wf h (p := .name false [0, 0, 0] n) (by rw [hi]; simp [texts])).1 rfl
    simp only [Part.box, List.length_append, List.length_cons, List.length_nil, List.cons_append] at hm hn
    refine ((Emits.emit _).seq ((Emits.emit _).seq ((writeStrAtom_emits (f := MEAN) rfl (by omega)).seq
      ((writeStrAtom_emits (f := NAME) rfl (by omega)).seq hd)))).eq ?_
    rw [toBe4, Nat.add_comm 8]
    simp only [texts, identFc, serL_cons, serL_nil, List.append_assoc, List.append_nil]
    rfl

theorem itemRaw_eq {a : AtomData} (h : ∀ d ∈ a.data, noUtf16Text d) : itemRaw a = (entryOf a).box.ser := by
  have h1 := claimed_len a
  rw [atomLen_eq h, Box.ser_length] at h1
  have h2 : (entryOf a).box.headLen = 8 := by rw [entryOf_eq]; rfl
  have h3 : a.data.flatMap dataRaw = serL Part.box (a.data.map dataPart) := by
    rw [serL_map]
    rw [List.flatMap_def, List.flatMap_def, List.map_congr_left fun d hd => dataRaw_eq (h d hd)]
  rw [itemRaw, small_head, h3, ← serL_append, Box.ser, Box.head, show claimed a + 8 = (entryOf a).box.body.length + 8 by omega]
  rw [entryOf_eq]
  rfl

/-- The bytes claimed for the item list, and by the atoms around it. -/
def listLen (atoms : List AtomData) : Nat := (atoms.map fun a => 8 + claimed a).sum
def metaLen (atoms : List AtomData) : Nat := hdlrBox.ser.length + (Size.ofContent (listLen atoms)).len + 4
def udtaLen (atoms : List AtomData) : Nat := (Size.ofContent (metaLen atoms)).len
def moovLen (atoms : List AtomData) : Nat := (Size.ofContent (udtaLen atoms)).len

def dumpRaw (atoms : List AtomData) : Bytes :=
  (⟨false, cc 'f' 't' 'y' 'p', utf8 dumpFtyp⟩ : Box).ser ++ ((claim MOVIE (moovLen atoms)).head ++ ((claim USER_DATA (udtaLen atoms)).head ++
    ((claim METADATA (metaLen atoms)).head ++ ([0, 0, 0, 0] ++ (hdlrBox.ser ++ ((claim ITEM_LIST (listLen atoms)).head ++
      atoms.flatMap itemRaw))))))

theorem ilstSize_raw (atoms : List AtomData) : ilstSize atoms = Size.ofContent (listLen atoms) := by
  unfold ilstSize listLen
  congr 2
  exact List.map_congr_left fun a _ => claimed_len a

theorem writeIlst_raw {atoms : List AtomData} (h : ∀ a ∈ atoms, (entryOf a).box.Fits) :
    Emits (writeIlst atoms) ((claim ITEM_LIST (listLen atoms)).head ++ atoms.flatMap itemRaw) := by
  unfold writeIlst
  rw [ilstSize_raw]
  exact (claim_emits _ _).seq (Emits.wrAll _ fun a ha => atomWrite_raw (h a ha))

theorem hdlr_len : (hdlrSize metaHdlr).len = hdlrBox.ser.length := by rw [hdlrSize_eq, size_len]

theorem metaSize_raw (atoms : List AtomData) : (⟨some metaHdlr, some atoms⟩ : MetaW).size = Size.ofContent (metaLen atoms) := by
  simp only [MetaW.size, lenOrZero, hdlr_len, ilstSize_raw]; rfl

theorem writeMeta_raw {atoms : List AtomData} (h : ∀ a ∈ atoms, (entryOf a).box.Fits) :
    Emits (writeMeta ⟨some metaHdlr, some atoms⟩) ((claim METADATA (metaLen atoms)).head ++ ([0, 0, 0, 0] ++ (hdlrBox.ser ++
      ((claim ITEM_LIST (listLen atoms)).head ++ atoms.flatMap itemRaw)))) := by
  unfold writeMeta
  rw [metaSize_raw]
  refine ((claim_emits _ _).seq ((((Emits.emit [0]).seq (Emits.emit [0, 0, 0]))).seq (writeHdlr_emits.seq (writeIlst_raw h)))).eq ?_
  simp

theorem udtaSize_raw (atoms : List AtomData) : udtaSize (some ⟨some metaHdlr, some atoms⟩) = Size.ofContent (udtaLen atoms) := by
  simp only [udtaSize, lenOrZero, metaSize_raw]; rfl

theorem writeUdta_raw {atoms : List AtomData} (h : ∀ a ∈ atoms, (entryOf a).box.Fits) :
    Emits (writeUdta (some ⟨some metaHdlr, some atoms⟩)) ((claim USER_DATA (udtaLen atoms)).head ++ ((claim METADATA (metaLen atoms)).head ++
      ([0, 0, 0, 0] ++ (hdlrBox.ser ++ ((claim ITEM_LIST (listLen atoms)).head ++ atoms.flatMap itemRaw))))) := by
  unfold writeUdta
  rw [udtaSize_raw]
  exact (claim_emits _ _).seq (writeMeta_raw h)

theorem dump_raw {atoms : List AtomData} (h : ∀ a ∈ atoms, (entryOf a).box.Fits) : Emits (dumpWr atoms) (dumpRaw atoms) := by
  unfold dumpWr writeMoov
  refine (writeFtyp_emits _).seq ?_
  have : lenOrZero udtaSize (some (some ⟨some metaHdlr, some atoms⟩)) = moovLen atoms := by
    simp only [lenOrZero, udtaSize_raw]; rfl
  rw [this]
  exact (claim_emits _ _).seq (writeUdta_raw h)

/-! ### Following a successful read -/

theorem walk_next {σ} {limit : E Nat} {handle : σ → Head → P σ} {f s parsed e F p h p' n r q} (hl : limit e = .ok n) (hp : parsed < n)
    (hh : parseHead e F p = .ok (h, p')) (hw : walk limit handle f s parsed e F p = .ok (r, q)) :
    ∃ f' s' q' m, handle s h e F p' = .ok (s', q') ∧ addU parsed h.size.len e = .ok m ∧ walk limit handle f' s' m e F q' = .ok (r, q) := by
  cases f with
  | zero => simp [walk, outOfFuel] at hw
  | succ f =>
    rw [walk, P.bind_ok (E.p_ok hl F p), P.if_apply, if_pos hp, P.bind_ok hh] at hw
    obtain ⟨s', q', h1, hw⟩ := P.bind_inv hw
    obtain ⟨m, q2, h2, hw⟩ := P.bind_inv hw
    obtain ⟨h4, h3⟩ := E.p_inv h2
    subst h3
    exact ⟨f, s', q', m, h1, h4, hw⟩

theorem walk_halt {σ} {limit : E Nat} {handle : σ → Head → P σ} {f s parsed e F p n r q} (hl : limit e = .ok n) (hp : n ≤ parsed)
    (hw : walk limit handle f s parsed e F p = .ok (r, q)) : r = s := by
  cases f with
  | zero => simp [walk, outOfFuel] at hw
  | succ f =>
    rw [walk, P.bind_ok (E.p_ok hl F p), P.if_apply, if_neg (by omega)] at hw
    exact (P.pure_inv hw).1.symm

theorem addU_small {a b m : Nat} {e : Env} (h : addU a b e = .ok m) (hs : a + b < 2^64) : m = a + b := by
  rw [addU, if_pos hs] at h
  exact (Out.ok.inj h).symm

/-- Passing over atoms that are what they claim to be. -/
theorem walk_along {κ σ} {box : κ → Box} {handle : σ → Head → P σ} {step : σ → κ → σ} {limit : E Nat} {e F n r q} (hF : F.length < 2^63)
    (hl : limit e = .ok n) : ∀ (ks : List κ) (f : Nat) (s : σ) (parsed p : Nat), (∀ k ∈ ks, (box k).Fits) →
    (∀ k ∈ ks, ∀ s q, At F q (box k).ser → handle s (box k).hd e F (q + (box k).headLen) = .ok (step s k, q + (box k).ser.length)) →
    At F p (serL box ks) → parsed + (serL box ks).length ≤ n → n < 2^63 → walk limit handle f s parsed e F p = .ok (r, q) →
    ∃ f', walk limit handle f' (ks.foldl step s) (parsed + (serL box ks).length) e F (p + (serL box ks).length) = .ok (r, q)
  | [], f, s, parsed, p, _, _, _, _, _, hw => ⟨f, by simpa [serL_nil] using hw⟩
  | k :: ks, f, s, parsed, p, hf, hk, hat, hn, hn63, hw => by
    have hsl := (box k).ser_length
    have hpos := (box k).headLen_pos
    rw [serL_cons] at hat
    rw [serL_cons, List.length_append] at hn
    obtain ⟨f', s', q', m, h1, h2, h3⟩ := walk_next hl (by omega) (parseHead_box hat.left (hf k (by simp)) hF e) hw
    rw [hk k (by simp) s p hat.left] at h1
    obtain ⟨rfl, rfl⟩ := Prod.mk.inj (Out.ok.inj h1)
    have hlen : (box k).hd.size.len = (box k).ser.length := size_len _
    rw [hlen] at h2
    cases addU_small h2 (by omega)
    obtain ⟨f2, h4⟩ := walk_along hF hl ks f' _ _ _ (fun x hx => hf x (by simp [hx])) (fun x hx => hk x (by simp [hx])) (hat.right rfl)
      (by omega) hn63 h3
    refine ⟨f2, ?_⟩
    rw [serL_cons, List.length_append, List.foldl_cons, ← Nat.add_assoc, ← Nat.add_assoc]
    exact h4

theorem loop_walk {σ} {limit : E Nat} {handle : σ → Head → P σ} {s parsed e F p r q} (h : loop limit handle s parsed e F p = .ok (r, q)) :
    walk limit handle e.fuel s parsed e F p = .ok (r, q) := h

/-- A head that claims `n` bytes. -/
theorem claim_at {F p} {fc : Fourcc} {n : Nat} (h : At F p (claim fc n).head) (hn : n < 2^63) (e : Env) :
    parseHead e F p = .ok (⟨Size.ofContent n, fc⟩, p + (claim fc n).headLen) := by
  have h1 := (claim fc n).size_headLen
  have h2 : (claim fc n).headLen ≤ 16 := by unfold Box.headLen; split <;> omega
  have := parseHead_head h (mkBox_fits _ _) (by simp only [claim, mkBox, List.length_replicate] at h2 ⊢; omega) e
  rwa [claim_hd] at this

theorem ofContent_content (n : Nat) (e : Env) : (Size.ofContent n).contentLen e = .ok n := by
  have := (claim ITEM_LIST n).contentLen e
  rw [show (claim ITEM_LIST n).size = Size.ofContent n by rw [claim, mkBox_size, List.length_replicate]] at this
  rw [this]; simp [claim, mkBox]

theorem ofContent_bounds (n : Nat) : n + 8 ≤ (Size.ofContent n).len ∧ (Size.ofContent n).len ≤ n + 16 := by
  unfold Size.ofContent; dsimp only; split <;> dsimp only <;> omega

/-- A container filled by its only child. -/
theorem only_child {σ} {handle : σ → Head → P σ} {s e F p n r q} {fc : Fourcc} (h : At F p (claim fc n).head) (hn : n < 2^63)
    (hw : loop (Size.ofContent (Size.ofContent n).len).contentLen handle s 0 e F p = .ok (r, q)) :
    ∃ q', handle s ⟨Size.ofContent n, fc⟩ e F (p + (claim fc n).headLen) = .ok (r, q') := by
  have hl := ofContent_bounds n
  obtain ⟨f, s', q', m, h1, h2, h3⟩ := walk_next (ofContent_content _ e) (by omega) (claim_at h (by omega) e) (loop_walk hw)
  cases addU_small h2 (by show 0 + (Size.ofContent n).len < _; omega)
  cases walk_halt (ofContent_content _ e) (by show (Size.ofContent n).len ≤ 0 + (Size.ofContent n).len; omega) h3
  exact ⟨q', h1⟩

theorem raw_le {a : AtomData} : 8 + claimed a ≤ (itemRaw a).length := by
  have : (a.data.map fun d => 16 + d.len).sum ≤ (a.data.flatMap dataRaw).length := by
    induction a.data with
    | nil => exact Nat.le_refl _
    | cons d ds ih =>
      have := dataLen_le d
      simp only [List.map_cons, List.sum_cons, List.flatMap_cons, List.length_append, dataRaw, small_head, be32_length, List.length_cons,
        List.length_nil, DATA, Fourcc.bytes]
      omega
  simp only [itemRaw, small_head, List.length_append, be32_length, claimed, Fourcc.bytes, List.length_cons, List.length_nil]
  omega

theorem listLen_le (atoms : List AtomData) : listLen atoms ≤ (atoms.flatMap itemRaw).length := by
  induction atoms with
  | nil => exact Nat.le_refl _
  | cons a as ih =>
    have := raw_le (a := a)
    simp only [listLen, List.map_cons, List.sum_cons, List.flatMap_cons, List.length_append] at ih ⊢
    omega

theorem claim_headLen (fc : Fourcc) (n : Nat) : 8 ≤ (claim fc n).headLen ∧ (claim fc n).head.length = (claim fc n).headLen :=
  ⟨Box.headLen_pos _, Box.head_length _⟩

theorem claim_len (n : Nat) : (Size.ofContent n).len = (claim ITEM_LIST n).headLen + n := by
  have := size_len (claim ITEM_LIST n)
  rw [Box.ser_length] at this
  rw [show (claim ITEM_LIST n).size = Size.ofContent n by rw [claim, mkBox_size, List.length_replicate]] at this
  rw [this]; simp [claim, mkBox]

theorem meta_ilst {e F p q} {atoms : List AtomData} {r} (hF : Fit e F)
    (hat : At F p ([0, 0, 0, 0] ++ (hdlrBox.ser ++ ((claim ITEM_LIST (listLen atoms)).head ++ atoms.flatMap itemRaw))))
    (h : parseMeta (Size.ofContent (metaLen atoms)) e F p = .ok (r, q)) :
    ∃ p' q' l, At F p' (atoms.flatMap itemRaw) ∧ parseIlst (Size.ofContent (listLen atoms)) e F p' = .ok (l, q') ∧ r = some l := by
  have hb := ofContent_bounds (listLen atoms)
  have hll := listLen_le atoms
  have hle := hat.le
  have hF1 := hF.len
  have hhl := hdlrBox.ser_length
  have hhp := hdlrBox.headLen_pos
  obtain ⟨hc1, hc2⟩ := claim_headLen ITEM_LIST (listLen atoms)
  simp only [List.length_append, hc2, List.length_cons, List.length_nil] at hle
  have hm : metaLen atoms = hdlrBox.ser.length + (Size.ofContent (listLen atoms)).len + 4 := rfl
  have hi := claim_len (listLen atoms)
  have a1 : At F p (0 :: [0, 0, 0]) := hat.left
  have a2 := hat.right (n := 4) rfl
  rw [parseMeta, P.bind_ok (parseFullHead_at a1 rfl e)] at h
  simp only [ne_eq, not_true_eq_false, if_false] at h
  obtain ⟨f, h3⟩ := walk_along (κ := Box) (box := id) (step := fun s _ => s) hF1 (ofContent_content _ e) [hdlrBox] _ _ _ _
    (fun k hk => by rw [List.mem_singleton.mp hk]; exact mkBox_fits _ _)
    (fun k hk s q hq => by
      rw [List.mem_singleton.mp hk] at hq ⊢
      have : ¬ hdlrBox.hd.fourcc = ITEM_LIST := by decide
      rw [show (id hdlrBox : Box) = hdlrBox from rfl, if_neg this, P.bind_ok (skipContent_box (b := hdlrBox) hq hF)]; rfl)
    (by rw [serL_cons, serL_nil, List.append_nil]; exact a2.left)
    (by rw [serL_cons, serL_nil, List.append_nil]; simp only [id]; omega) (by omega) (loop_walk h)
  rw [serL_cons, serL_nil, List.append_nil, List.foldl_cons, List.foldl_nil] at h3
  simp only [id] at h3
  have a3 := a2.right rfl
  obtain ⟨f', s', q', m, h4, h5, h6⟩ := walk_next (ofContent_content _ e) (by omega) (claim_at a3.left (by omega) e) h3
  cases addU_small h5 (by show _ + (Size.ofContent _).len < _; omega)
  cases walk_halt (ofContent_content _ e) (by show _ ≤ _ + (Size.ofContent _).len; omega) h6
  rw [if_pos (show (⟨Size.ofContent (listLen atoms), ITEM_LIST⟩ : Head).fourcc = ITEM_LIST from rfl)] at h4
  obtain ⟨l, q2, h7, h8⟩ := P.bind_inv h4
  obtain ⟨rfl, -⟩ := P.pure_inv h8
  exact ⟨_, q2, l, a3.right hc2, h7, rfl⟩

theorem dump_ilst {e F} {atoms : List AtomData} {t : Tag} (hF : Fit e F) (hat : At F 0 (dumpRaw atoms)) (h : readTag e F 0 = .ok t) :
    ∃ p q, At F p (atoms.flatMap itemRaw) ∧ parseIlst (Size.ofContent (listLen atoms)) e F p = .ok (t.atoms, q) := by
  have hle := hat.le
  have hF1 := hF.len
  have hll := listLen_le atoms
  have hb1 := ofContent_bounds (listLen atoms)
  have hb2 := ofContent_bounds (metaLen atoms)
  have hb3 := ofContent_bounds (udtaLen atoms)
  have hm : metaLen atoms = hdlrBox.ser.length + (Size.ofContent (listLen atoms)).len + 4 := rfl
  have hu : udtaLen atoms = (Size.ofContent (metaLen atoms)).len := rfl
  have hv : moovLen atoms = (Size.ofContent (udtaLen atoms)).len := rfl
  obtain ⟨hc1, hc2⟩ := claim_headLen ITEM_LIST (listLen atoms)
  obtain ⟨hc3, hc4⟩ := claim_headLen METADATA (metaLen atoms)
  obtain ⟨hc5, hc6⟩ := claim_headLen USER_DATA (udtaLen atoms)
  obtain ⟨hc7, hc8⟩ := claim_headLen MOVIE (moovLen atoms)
  rw [dumpRaw] at hat hle
  generalize hft : (⟨false, cc 'f' 't' 'y' 'p', utf8 dumpFtyp⟩ : Box) = ft at hat hle
  have hfit : (⟨false, cc 'f' 't' 'y' 'p', utf8 dumpFtyp⟩ : Box).Fits := by intro _; rw [dumpFtyp_len]; omega
  have hfl : ft.ser.length = 24 := by rw [← hft, Box.ser_length]; simp [dumpFtyp_len, Box.headLen]
  simp only [List.length_append, hc2, hc4, hc6, hc8, hfl, List.length_cons, List.length_nil] at hle
  have a1 := hat.right hfl
  have a2 := a1.right hc8
  have a3 := a2.right hc6
  have a4 := a3.right hc4
  obtain ⟨⟨t1, q1⟩, h1⟩ : ∃ x, readTagP e F 0 = .ok x ∧ x.1 = t := by
    unfold readTag at h
    generalize readTagP e F 0 = o at h
    cases o with
    | ok x => exact ⟨x, rfl, Out.ok.inj h⟩
    | _ => cases h
  obtain ⟨h1, rfl⟩ := h1
  subst hft
  rw [readTagP, P.bind_ok (parseFtyp_at hF hfit hat.left)] at h1
  rw [hfl] at h1
  rw [P.bind_ok (remaining_at hF (show 0 + 24 ≤ F.length by omega)), P.bind_ok (show getFuel e F _ = .ok (e.fuel, _) from rfl)] at h1
  obtain ⟨mv, q2, h2, h1⟩ := P.bind_inv h1
  obtain ⟨rfl, -⟩ := P.pure_inv h1
  have hmv : ∃ p', parseMoov (Size.ofContent (moovLen atoms)) e F (0 + 24 + (claim MOVIE (moovLen atoms)).headLen) = .ok (mv, p') := by
    cases hfu : e.fuel with
    | zero => rw [hfu] at h2; simp [topWalk, outOfFuel] at h2
    | succ f =>
      rw [hfu, topWalk, if_neg (by omega), P.bind_ok (claim_at a1.left (by omega) e)] at h2
      exact ⟨_, h2⟩
  obtain ⟨q3, h3⟩ := hmv
  rw [parseMoov, hv] at h3
  obtain ⟨q4, h4⟩ := only_child a2.left (by omega) h3
  rw [moovHandle, if_neg (show ¬ USER_DATA = MOVIE_HEADER by decide), if_neg (show ¬ USER_DATA = TRACK by decide), if_pos rfl] at h4
  obtain ⟨ud, q5, h5, h6⟩ := P.bind_inv h4
  obtain ⟨rfl, -⟩ := P.pure_inv h6
  rw [parseUdta, hu] at h5
  obtain ⟨q6, h6⟩ := only_child a3.left (by omega) h5
  rw [if_pos rfl] at h6
  obtain ⟨me, q7, h7, h8⟩ := P.bind_inv h6
  obtain ⟨rfl, -⟩ := P.pure_inv h8
  obtain ⟨p', q', l, h9, h10, rfl⟩ := meta_ilst hF a4 h7
  exact ⟨p', q', h9, h10⟩

/-! ### Half of a text -/

theorem small_at {F p} {fc : Fourcc} {n : Nat} (h : At F p (small fc n).head) (hn : n + 8 < 2^32) (e : Env) :
    parseHead e F p = .ok (⟨⟨false, 8 + n⟩, fc⟩, p + 8) := by
  have := parseHead_head h (fun _ => by simp only [small, List.length_replicate]; omega)
    (by simp only [small, List.length_replicate, Box.headLen, Bool.false_eq_true, if_false]; omega) e
  rw [small_hd] at this
  exact this

theorem utf16be_length (s : Str) : (utf16be s).length = 2 * (utf16Enc s).length := by
  rw [utf16be_spec]
  generalize utf16Enc s = l
  induction l with
  | nil => rfl
  | cons x l ih => simp only [Mp4.be16, List.flatMap_cons, List.length_append, toBe_length, List.length_cons] at ih ⊢; omega

/-- What is read for a UTF-16 text is another one. -/
theorem itemHandle_half {e F p q} {s s' : ItemSt} {x : Str} (hx : x ≠ []) (hat : At F p (be32 (typeCode (.utf16 x)) ++ [0, 0, 0, 0] ++ payload (.utf16 x)))
    (hF : Fit e F) (h : itemHandle s ⟨⟨false, 8 + (8 + (Data.utf16 x).len)⟩, DATA⟩ e F p = .ok (s', q)) :
    ∃ y, y ≠ x ∧ s'.data = s.data ++ [.utf16 y] := by
  have hle := hat.le
  have hF1 := hF.len
  have hF2 := hF.pos
  have a1 : At F p (0 :: [0, 0, 2]) := by
    have := hat.left.left
    rwa [show be32 (typeCode (Data.utf16 x)) = 0 :: [0, 0, 2] from by simp only [typeCode]; decide] at this
  have hl : (Data.utf16 x).len ≤ (payload (.utf16 x)).length := dataLen_le _
  simp only [List.length_append, be32_length, List.length_cons, List.length_nil] at hle
  rw [itemHandle, if_pos rfl, P.bind_ok (parseFullHead_at a1 rfl e)] at h
  simp only [ne_eq, not_true_eq_false, if_false] at h
  rw [P.bind_ok (seekCur_lit (i := 4) 4 rfl (by omega))] at h
  have hc : (⟨false, 8 + (8 + (Data.utf16 x).len)⟩ : Size).contentLen e = .ok (8 + (Data.utf16 x).len) := by
    rw [Size.contentLen, if_neg (by simp), subU]; dsimp only; rw [if_pos (by omega)]; congr 1; omega
  have hs : subU (8 + (Data.utf16 x).len) 8 e = .ok (Data.utf16 x).len := by rw [subU, if_pos (by omega)]; congr 1; omega
  rw [P.bind_ok (E.p_ok hc F _), P.bind_ok (E.p_ok hs F _), show beNat [0, 0, 2] = 2 from rfl] at h
  obtain ⟨v, q1, h1, h2⟩ := P.bind_inv h
  obtain ⟨rfl, -⟩ := P.pure_inv h2
  simp only [Data.parse] at h1
  obtain ⟨y, q2, h3, h4⟩ := P.bind_inv h1
  obtain ⟨rfl, -⟩ := P.pure_inv h4
  refine ⟨y, ?_, rfl⟩
  have key := Par.readUtf16 (Q := fun s _ => s ≠ x) (fun s odd _ _ h2 _ he => by
    subst he
    rw [List.length_append, utf16be_length] at h2
    have : (utf16Enc s).length = (Data.utf16 s).len := rfl
    have h0 : (utf16Enc s).length = 0 := by omega
    cases s with
    | nil => exact hx rfl
    | cons c cs =>
      rw [utf16Enc, List.flatMap_cons, List.length_append] at h0
      have : 0 < (utf16EncChar c).length := by unfold utf16EncChar; dsimp only; split <;> simp
      omega) _ _ h3
  exact key

/-- Items are only added: what was read stays at its place. -/
theorem mergeItem_keeps (x : AtomData) : ∀ (L : List AtomData) (k : Nat) (a : AtomData), L[k]? = some a →
    ∃ a', (mergeItem L x)[k]? = some a' ∧ a.data <+: a'.data
  | [], k, a, h => by simp at h
  | o :: os, k, a, h => by
    rw [mergeItem]
    split
    · cases k with
      | zero =>
        simp only [List.getElem?_cons_zero, Option.some.injEq] at h
        subst h
        exact ⟨_, rfl, List.prefix_append _ _⟩
      | succ k => exact ⟨a, by simpa using h, List.prefix_refl _⟩
    · cases k with
      | zero => exact ⟨a, by simpa using h, List.prefix_refl _⟩
      | succ k => simpa using mergeItem_keeps x os k a (by simpa using h)

/-- An entry of `L` has something that the entry of `T` at its place has not. -/
def Off (T L : List AtomData) : Prop := ∃ (k : Nat) (a : AtomData), L[k]? = some a ∧ ∀ b, T[k]? = some b → ¬ a.data <+: b.data

theorem Off.ne {T L : List AtomData} (h : Off T L) : L ≠ T := by
  rintro rfl
  obtain ⟨k, a, h1, h2⟩ := h
  exact h2 a h1 (List.prefix_refl _)

theorem Off.merge {T L : List AtomData} (h : Off T L) (x : AtomData) : Off T (mergeItem L x) := by
  obtain ⟨k, a, h1, h2⟩ := h
  obtain ⟨a', h3, h4⟩ := mergeItem_keeps x L k a h1
  exact ⟨k, a', h3, fun b hb hp => h2 b hb (h4.trans hp)⟩

theorem mergeItem_cases (x : AtomData) : ∀ L : List AtomData, mergeItem L x = L ++ [x] ∨
    ∃ (k : Nat) (a a' : AtomData), L[k]? = some a ∧ (mergeItem L x)[k]? = some a' ∧ a'.data = a.data ++ x.data
  | [] => .inl rfl
  | o :: os => by
    rw [mergeItem]
    split
    · exact .inr ⟨0, o, _, rfl, rfl, rfl⟩
    · rcases mergeItem_cases x os with h | ⟨k, a, a', h1, h2, h3⟩
      · exact .inl (by rw [h]; rfl)
      · exact .inr ⟨k + 1, a, a', by simpa using h1, by simpa using h2, h3⟩

/-- The entry that was read first with a wrong text. -/
theorem off_merge {L : List AtomData} {a x : AtomData} {R : List AtomData} {ds r : List Data} {d d' : Data} (ha : a.data = ds ++ d :: r)
    (hx : ds ++ [d'] <+: x.data) (hd : d' ≠ d) : Off (L ++ a :: R) (mergeItem L x) := by
  have hx0 : x.data ≠ [] := by
    intro h
    rw [h] at hx
    simpa using List.prefix_nil.mp hx
  rcases mergeItem_cases x L with h | ⟨k, b, b', h1, h2, h3⟩
  · refine ⟨L.length, x, by rw [h]; simp, ?_⟩
    intro b hb hp
    rw [List.getElem?_append_right (Nat.le_refl _), Nat.sub_self, List.getElem?_cons_zero, Option.some.injEq] at hb
    subst hb
    have := hx.trans hp
    rw [ha] at this
    rw [List.prefix_append_right_inj] at this
    exact hd (List.cons_prefix_cons.mp this).1
  · refine ⟨k, b', h2, ?_⟩
    intro c hc hp
    rw [List.getElem?_append_left (List.getElem?_eq_some_iff.mp h1).1, h1, Option.some.injEq] at hc
    subst hc
    rw [h3] at hp
    have := hp.length_le
    rw [List.length_append] at this
    exact hx0 (List.length_eq_zero_iff.mp (by omega))

theorem itemHandle_adds {e F p q s s'} {h : Head} {D : List Data} (hs : D <+: s.data) (hh : itemHandle s h e F p = .ok (s', q)) : D <+: s'.data := by
  unfold itemHandle at hh
  split at hh
  · obtain ⟨⟨v, fl⟩, _, _, hh⟩ := P.bind_inv hh
    dsimp only at hh
    split at hh
    · cases hh
    · obtain ⟨_, _, _, hh⟩ := P.bind_inv hh
      obtain ⟨_, _, _, hh⟩ := P.bind_inv hh
      obtain ⟨_, _, _, hh⟩ := P.bind_inv hh
      obtain ⟨_, _, _, hh⟩ := P.bind_inv hh
      obtain ⟨rfl, -⟩ := P.pure_inv hh
      exact hs.trans (List.prefix_append _ _)
  · split at hh
    · obtain ⟨⟨v, fl⟩, _, _, hh⟩ := P.bind_inv hh
      dsimp only at hh
      split at hh
      · cases hh
      · obtain ⟨_, _, _, hh⟩ := P.bind_inv hh
        obtain ⟨_, _, _, hh⟩ := P.bind_inv hh
        obtain ⟨_, _, _, hh⟩ := P.bind_inv hh
        obtain ⟨rfl, -⟩ := P.pure_inv hh
        exact hs
    · split at hh
      · obtain ⟨⟨v, fl⟩, _, _, hh⟩ := P.bind_inv hh
        dsimp only at hh
        split at hh
        · cases hh
        · obtain ⟨_, _, _, hh⟩ := P.bind_inv hh
          obtain ⟨_, _, _, hh⟩ := P.bind_inv hh
          obtain ⟨_, _, _, hh⟩ := P.bind_inv hh
          obtain ⟨rfl, -⟩ := P.pure_inv hh
          exact hs
      · obtain ⟨_, _, _, hh⟩ := P.bind_inv hh
        obtain ⟨rfl, -⟩ := P.pure_inv hh
        exact hs

theorem values_texts (i : DataIdent) : (texts i).filterMap Part.value? = [] := by cases i <;> rfl

/-- An item with a UTF-16 text. -/
theorem parseItem_half {e F p q} {a x : AtomData} {ds r : List Data} {s : Str} {fc : Fourcc} (hF : Fit e F) (hfit : (entryOf a).box.Fits)
    (ha : a.data = ds ++ .utf16 s :: r) (hds : ∀ d ∈ ds, noUtf16Text d) (hs : s ≠ [])
    (hat : At F p (serL Part.box (texts a.ident) ++ a.data.flatMap dataRaw))
    (h : parseItem fc (claimed a) e F p = .ok (x, q)) : ∃ y, y ≠ s ∧ ds ++ [.utf16 y] <+: x.data := by
  have hlt := entry_lt hfit
  have hcl := claimed_le a
  have hgood : serL Part.box (texts a.ident) ++ a.data.flatMap dataRaw
      = serL Part.box (texts a.ident ++ ds.map dataPart) ++ (dataRaw (.utf16 s) ++ r.flatMap dataRaw) := by
    have : ds.flatMap dataRaw = serL Part.box (ds.map dataPart) := by
      rw [serL_map, List.flatMap_def, List.flatMap_def, List.map_congr_left fun d hd => dataRaw_eq (hds d hd)]
    rw [ha, List.flatMap_append, List.flatMap_cons, serL_append, this, List.append_assoc]
  rw [hgood] at hat
  have hn : (serL Part.box (texts a.ident ++ ds.map dataPart)).length + 16 + (Data.utf16 s).len ≤ claimed a := by
    have : (serL Part.box (ds.map dataPart)).length = (ds.map fun d => 16 + d.len).sum := dataParts_length hds
    rw [claimed, ha, serL_append, List.length_append, List.map_append, List.sum_append, List.map_cons, List.sum_cons]
    omega
  rw [parseItem] at h
  obtain ⟨st, q1, h1, h⟩ := P.bind_inv h
  obtain ⟨f, h2⟩ := walk_along (box := Part.box) (step := partStep) hF.len (show (pure (claimed a) : E Nat) e = .ok (claimed a) from rfl)
    (texts a.ident ++ ds.map dataPart) _ _ _ _
    (fun k hk => by
      rcases List.mem_append.mp hk with hk | hk
      · exact (texts_wf hfit hk).1
      · obtain ⟨d, hd, rfl⟩ := List.mem_map.mp hk
        exact (data_wf hfit (by rw [ha]; exact List.mem_append_left _ hd)).1)
    (fun k hk st q hq => itemHandle_at st hF (by
      rcases List.mem_append.mp hk with hk | hk
      · exact texts_wf hfit hk
      · obtain ⟨d, hd, rfl⟩ := List.mem_map.mp hk
        exact data_wf hfit (by rw [ha]; exact List.mem_append_left _ hd)) hq)
    hat.left (by omega) (by omega) (loop_walk h1)
  have a2 := hat.right rfl
  have a3 := a2.left
  rw [dataRaw] at a3
  obtain ⟨f', s', q', m, h3, -, h4⟩ := walk_next (show (pure (claimed a) : E Nat) e = .ok (claimed a) from rfl) (by omega)
    (small_at a3.left (by omega) e) h2
  obtain ⟨y, hy, hd⟩ := itemHandle_half hs (by
    have := a3.right (n := 8) (by rw [small_head]; simp [be32_length, Fourcc.bytes])
    exact this) hF h3
  refine ⟨y, hy, ?_⟩
  rw [partFold] at hd
  simp only [List.nil_append, List.filterMap_append, values_texts, values_of_dataParts] at hd
  have key := walk_inv (fun st => ds ++ [.utf16 y] <+: st.data) (fun s h p s' p' => itemHandle_adds) _ _ _ _ _ _
    (by rw [hd]; exact List.prefix_refl _) h4
  rw [P.if_apply] at h
  split at h
  · cases h
  · obtain ⟨rfl, -⟩ := P.pure_inv h
    exact key

theorem identFc_ne {a : AtomData} (h : Visible a) : identFc a.ident ≠ FREE := by
  cases hi : a.ident with
  | fourcc f =>
    intro hf
    exact h.2 (by rw [hi]; exact congrArg _ hf)
  | freeform m n => show cc '-' '-' '-' '-' ≠ FREE; decide

/-- An item that is what it claims to be. -/
theorem goodItem {e F q} {a : AtomData} (s : List AtomData) (hF : Fit e F) (hfit : (entryOf a).box.Fits) (hv : Visible a)
    (hat : At F q (entryOf a).box.ser) :
    (if (entryOf a).box.hd.fourcc = FREE then do skipContent (entryOf a).box.hd; pure s
      else do
        let n ← (entryOf a).box.hd.size.contentLen.p
        let x ← parseItem (entryOf a).box.hd.fourcc n
        pure (mergeItem s x) : P (List AtomData)) e F (q + (entryOf a).box.headLen) = .ok (mergeItem s a, q + (entryOf a).box.ser.length) := by
  have hw := entryOf_WF hfit hv
  have hdec := entryOf_decoded a
  rw [entryOf_eq] at hat hw hdec hfit ⊢
  obtain ⟨-, h1, h2, h3⟩ := hw
  simp only [Entry.decoded, Option.some.injEq, Prod.mk.injEq] at hdec
  have hsl := (Entry.item false (identFc a.ident) (texts a.ident ++ a.data.map dataPart)).box.ser_length
  have hc : (Entry.item false (identFc a.ident) (texts a.ident ++ a.data.map dataPart)).box.hd.size.contentLen e
      = .ok (serL Part.box (texts a.ident ++ a.data.map dataPart)).length := Box.contentLen _ e
  rw [if_neg (show ¬ (Entry.item false (identFc a.ident) (texts a.ident ++ a.data.map dataPart)).box.hd.fourcc = FREE from h1),
    P.bind_ok (E.p_ok hc F _), P.bind_ok (parseItem_at hF h2 h3 (Box.body_at hat)), P.pure_apply, hsl, ← Nat.add_assoc]
  have : itemKey (Entry.item false (identFc a.ident) (texts a.ident ++ a.data.map dataPart)).box.hd.fourcc (texts a.ident ++ a.data.map dataPart)
      = a.ident := hdec.1
  rw [this, hdec.2]
  rfl

theorem foldl_merge : ∀ (L acc : List AtomData), ((acc ++ L).map (·.ident)).Nodup → L.foldl mergeItem acc = acc ++ L
  | [], acc, _ => by simp
  | a :: L, acc, h => by
    have hn : ∀ x ∈ acc, x.ident ≠ a.ident := by
      intro x hx he
      rw [List.map_append, List.map_cons, List.nodup_append] at h
      exact h.2.2 x.ident (List.mem_map_of_mem hx) a.ident (by simp) he
    rw [List.foldl_cons, mergeItem_new a acc hn, foldl_merge L (acc ++ [a]) (by simpa using h)]
    simp

theorem goodRaw : ∀ L : List AtomData, (∀ x ∈ L, ∀ d ∈ x.data, noUtf16Text d) →
    L.flatMap itemRaw = serL (fun a => (entryOf a).box) L ∧ (serL (fun a => (entryOf a).box) L).length = listLen L
  | [], _ => ⟨rfl, rfl⟩
  | a :: L, h => by
    obtain ⟨h1, h2⟩ := goodRaw L (fun x hx => h x (by simp [hx]))
    refine ⟨by rw [List.flatMap_cons, serL_cons, h1, itemRaw_eq (h a (by simp))], ?_⟩
    rw [serL_cons, List.length_append, h2, ← atomLen_eq (h a (by simp)), claimed_len]
    simp [listLen]

/-- Something in the list is different. -/
theorem parseIlst_half {e F p q} {L R : List AtomData} {a : AtomData} {l : List AtomData} {ds r : List Data} {s : Str} (hF : Fit e F)
    (hfit : ∀ x ∈ L ++ a :: R, (entryOf x).box.Fits) (hL : ∀ x ∈ L, Visible x ∧ ∀ d ∈ x.data, noUtf16Text d)
    (hv : Visible a) (ha : a.data = ds ++ .utf16 s :: r) (hds : ∀ d ∈ ds, noUtf16Text d) (hs : s ≠ []) (hd : (L.map (·.ident)).Nodup)
    (hat : At F p ((L ++ a :: R).flatMap itemRaw))
    (h : parseIlst (Size.ofContent (listLen (L ++ a :: R))) e F p = .ok (l, q)) : l ≠ L ++ a :: R := by
  have hle := hat.le
  have hF1 := hF.len
  have hll := listLen_le (L ++ a :: R)
  obtain ⟨g1, g2⟩ := goodRaw L (fun x hx => (hL x hx).2)
  have hsum : listLen L + (8 + claimed a) ≤ listLen (L ++ a :: R) := by
    simp only [listLen, List.map_append, List.sum_append, List.map_cons, List.sum_cons]; omega
  have hfa := hfit a (by simp)
  have hlt := entry_lt hfa
  have hcl := claimed_le a
  rw [List.flatMap_append, List.flatMap_cons, g1] at hat
  rw [parseIlst] at h
  obtain ⟨f, h2⟩ := walk_along (box := fun a => (entryOf a).box) (step := mergeItem) hF1 (ofContent_content _ e) L _ _ _ _
    (fun k hk => hfit k (by simp [hk])) (fun k hk s q hq => goodItem s hF (hfit k (by simp [hk])) (hL k hk).1 hq)
    hat.left (by omega) (by omega) (loop_walk h)
  have a2 := (hat.right rfl).left
  rw [itemRaw] at a2
  obtain ⟨f', s', q', m, h3, -, h4⟩ := walk_next (ofContent_content _ e) (by omega) (small_at a2.left (by omega) e) h2
  rw [if_neg (show ¬ (⟨⟨false, 8 + claimed a⟩, identFc a.ident⟩ : Head).fourcc = FREE from identFc_ne hv)] at h3
  have hc : (⟨false, 8 + claimed a⟩ : Size).contentLen e = .ok (claimed a) := by
    rw [Size.contentLen, if_neg (by simp), subU]; dsimp only; rw [if_pos (by omega)]; congr 1; omega
  rw [P.bind_ok (E.p_ok hc F _)] at h3
  obtain ⟨x, q2, h5, h6⟩ := P.bind_inv h3
  obtain ⟨rfl, -⟩ := P.pure_inv h6
  obtain ⟨y, hy, hx⟩ := parseItem_half hF hfa ha hds hs (a2.right (n := 8) (by rw [small_head]; simp [be32_length, Fourcc.bytes])) h5
  rw [foldl_merge L [] (by simpa using hd), List.nil_append] at h4
  have hoff := off_merge (L := L) (R := R) ha hx (fun he => hy (Data.utf16.inj he))
  refine Off.ne (walk_inv (Off (L ++ a :: R)) ?_ _ _ _ _ _ _ hoff h4)
  intro s h p s' p' ho hh
  split at hh
  · obtain ⟨_, _, _, hh⟩ := P.bind_inv hh
    obtain ⟨rfl, -⟩ := P.pure_inv hh
    exact ho
  · obtain ⟨_, _, _, hh⟩ := P.bind_inv hh
    obtain ⟨x, _, _, hh⟩ := P.bind_inv hh
    obtain ⟨rfl, -⟩ := P.pure_inv hh
    exact ho.merge x

theorem mergeItem_visible {x : AtomData} (hvx : Visible x) : ∀ s : List AtomData, (∀ a ∈ s, Visible a) → ∀ a ∈ mergeItem s x, Visible a
  | [], _, a, ha => by simp only [mergeItem, List.mem_cons, List.not_mem_nil, or_false] at ha; rw [ha]; exact hvx
  | o :: os, hs, a, ha => by
    have ho := hs o (by simp)
    rw [mergeItem] at ha
    split at ha
    · rcases List.mem_cons.mp ha with rfl | ha
      · exact ⟨by simp [ho.1], ho.2⟩
      · exact hs a (by simp [ha])
    · rcases List.mem_cons.mp ha with rfl | ha
      · exact ho
      · exact mergeItem_visible hvx os (fun a ha => hs a (by simp [ha])) a ha

/-- What is read is visible. -/
theorem parseIlst_visible {e F p q} {size : Size} {l : List AtomData} (h : parseIlst size e F p = .ok (l, q)) : ∀ a ∈ l, Visible a := by
  rw [parseIlst] at h
  refine loop_inv (fun l : List AtomData => ∀ a ∈ l, Visible a) ?_ (fun a ha => by cases ha) h
  intro s hd p s' p' hs hh
  split at hh
  · obtain ⟨_, _, _, hh⟩ := P.bind_inv hh
    obtain ⟨rfl, -⟩ := P.pure_inv hh
    exact hs
  · rename_i hfree
    obtain ⟨n, _, _, hh⟩ := P.bind_inv hh
    obtain ⟨x, _, hx, hh⟩ := P.bind_inv hh
    obtain ⟨rfl, -⟩ := P.pure_inv hh
    have hvx : Visible x := by
      rw [parseItem] at hx
      obtain ⟨st, _, _, hx⟩ := P.bind_inv hx
      rw [P.if_apply] at hx
      split at hx
      · cases hx
      · rename_i hne
        obtain ⟨rfl, -⟩ := P.pure_inv hx
        refine ⟨by simpa using hne, ?_⟩
        show itemIdent hd.fourcc st.mean st.name ≠ _
        have hfr : ¬ hd.fourcc = cc 'f' 'r' 'e' 'e' := hfree
        unfold itemIdent
        split
        · split
          · simp
          · simpa using hfr
        · simpa using hfr
    exact mergeItem_visible hvx s hs

theorem mergeItem_idents (x : AtomData) : ∀ s : List AtomData, ∀ i ∈ (mergeItem s x).map (·.ident), i = x.ident ∨ i ∈ s.map (·.ident)
  | [], i, hi => by simp only [mergeItem, List.map_cons, List.map_nil, List.mem_cons, List.not_mem_nil, or_false] at hi; exact .inl hi
  | o :: os, i, hi => by
    rw [mergeItem] at hi
    split at hi
    · exact .inr (by simpa using hi)
    · rw [List.map_cons, List.mem_cons] at hi
      rcases hi with rfl | hi
      · exact .inr (by simp)
      · rcases mergeItem_idents x os i hi with h | h
        · exact .inl h
        · exact .inr (by rw [List.map_cons]; exact List.mem_cons_of_mem _ h)

theorem mergeItem_nodup (x : AtomData) : ∀ s : List AtomData, (s.map (·.ident)).Nodup → ((mergeItem s x).map (·.ident)).Nodup
  | [], _ => by simp [mergeItem]
  | o :: os, hs => by
    rw [List.map_cons, List.nodup_cons] at hs
    rw [mergeItem]
    split
    · rw [List.map_cons, List.nodup_cons]; exact hs
    · rename_i hne
      rw [List.map_cons, List.nodup_cons]
      refine ⟨fun hm => ?_, mergeItem_nodup x os hs.2⟩
      rcases mergeItem_idents x os _ hm with h | h
      · exact hne (by first | exact h.symm | exact h | simp [h])
      · exact hs.1 h

/-- No identifier is read twice. -/
theorem parseIlst_nodup {e F p q} {size : Size} {l : List AtomData} (h : parseIlst size e F p = .ok (l, q)) : (l.map (·.ident)).Nodup := by
  rw [parseIlst] at h
  refine loop_inv (fun l : List AtomData => (l.map (·.ident)).Nodup) ?_ (by simp) h
  intro s hd p s' p' hs hh
  split at hh
  · obtain ⟨_, _, _, hh⟩ := P.bind_inv hh
    obtain ⟨rfl, -⟩ := P.pure_inv hh
    exact hs
  · obtain ⟨n, _, _, hh⟩ := P.bind_inv hh
    obtain ⟨x, _, hx, hh⟩ := P.bind_inv hh
    obtain ⟨rfl, -⟩ := P.pure_inv hh
    exact mergeItem_nodup x s hs

theorem first_bad {α} {P : α → Prop} : ∀ l : List α, (¬ ∀ a ∈ l, P a) → ∃ L a R, l = L ++ a :: R ∧ (∀ x ∈ L, P x) ∧ ¬ P a
  | [], h => absurd (fun _ h => by cases h) h
  | x :: l, h => by
    by_cases hx : P x
    · obtain ⟨L, a, R, h1, h2, h3⟩ := first_bad l (fun hl => h (List.forall_mem_cons.mpr ⟨hx, hl⟩))
      exact ⟨x :: L, a, R, by rw [h1]; rfl, List.forall_mem_cons.mpr ⟨hx, h2⟩, h3⟩
    · exact ⟨[], x, l, rfl, fun _ h => (by cases h), hx⟩

/-! ### The last text -/

theorem walk_last {σ} {limit : E Nat} {handle : σ → Head → P σ} {f s parsed e F p h p' n} (hl : limit e = .ok n) (hp : parsed < n)
    (hh : parseHead e F p = .ok (h, p')) (hn : parsed + h.size.len = n) (h64 : n < 2^64) :
    walk limit handle (f + 2) s parsed e F p = handle s h e F p' := by
  rw [walk, P.bind_ok (E.p_ok hl F p), P.if_apply, if_pos hp, P.bind_ok hh, P.bind_apply]
  have ha : addU parsed h.size.len e = .ok n := by rw [addU, if_pos (by omega), hn]
  cases hs : handle s h e F p' with
  | ok x =>
    obtain ⟨s', q'⟩ := x
    dsimp only
    rw [P.bind_ok (E.p_ok ha F q'), walk, P.bind_ok (E.p_ok hl F q'), P.if_apply, if_neg (by omega)]
    rfl
  | _ => rfl

theorem walk_over {κ σ} {box : κ → Box} {handle : σ → Head → P σ} {step : σ → κ → σ} {limit : E Nat} {e F n} (hF : F.length < 2^63)
    (hl : limit e = .ok n) : ∀ (ks : List κ) (f : Nat) (s : σ) (parsed p : Nat), (∀ k ∈ ks, (box k).Fits) →
    (∀ k ∈ ks, ∀ s q, At F q (box k).ser → handle s (box k).hd e F (q + (box k).headLen) = .ok (step s k, q + (box k).ser.length)) →
    At F p (serL box ks) → parsed + (serL box ks).length ≤ n → n < 2^63 →
    walk limit handle (f + ks.length) s parsed e F p
      = walk limit handle f (ks.foldl step s) (parsed + (serL box ks).length) e F (p + (serL box ks).length)
  | [], f, s, parsed, p, _, _, _, _, _ => by simp [serL_nil]
  | k :: ks, f, s, parsed, p, hf, hk, hat, hn, hn63 => by
    have hsl := (box k).ser_length
    have hpos := (box k).headLen_pos
    rw [serL_cons] at hat
    rw [serL_cons, List.length_append] at hn
    have hlen : (box k).hd.size.len = (box k).ser.length := size_len _
    have ha : addU parsed (box k).hd.size.len e = .ok (parsed + (box k).ser.length) := by rw [addU, hlen, if_pos (by omega)]
    rw [List.length_cons, ← Nat.add_assoc, walk, P.bind_ok (E.p_ok hl F p), P.if_apply, if_pos (by omega),
      P.bind_ok (parseHead_box hat.left (hf k (by simp)) hF e), P.bind_ok (hk k (by simp) s p hat.left), P.bind_ok (E.p_ok ha F _),
      walk_over hF hl ks f _ _ _ (fun x hx => hf x (by simp [hx])) (fun x hx => hk x (by simp [hx])) (hat.right rfl) (by omega) hn63,
      serL_cons, List.length_append, List.foldl_cons, ← Nat.add_assoc, ← Nat.add_assoc]

theorem only_over {σ} {handle : σ → Head → P σ} {s e F p n} {fc : Fourcc} (h : At F p (claim fc n).head) (hn : n < 2^63) (hf : 2 ≤ e.fuel) :
    loop (Size.ofContent (Size.ofContent n).len).contentLen handle s 0 e F p
      = handle s ⟨Size.ofContent n, fc⟩ e F (p + (claim fc n).headLen) := by
  have hl := ofContent_bounds n
  obtain ⟨f, hf⟩ : ∃ f, e.fuel = f + 2 := ⟨e.fuel - 2, by omega⟩
  show walk _ handle e.fuel s 0 e F p = _
  rw [hf]
  exact walk_last (ofContent_content _ e) (by omega) (claim_at h hn e) (by show 0 + (Size.ofContent n).len = _; omega) (by omega)

theorem meta_over {e F p} {atoms : List AtomData} (hF : Fit e F)
    (hat : At F p ([0, 0, 0, 0] ++ (hdlrBox.ser ++ ((claim ITEM_LIST (listLen atoms)).head ++ atoms.flatMap itemRaw)))) :
    ∃ p', At F p' (atoms.flatMap itemRaw) ∧ parseMeta (Size.ofContent (metaLen atoms)) e F p
      = (parseIlst (Size.ofContent (listLen atoms)) >>= fun l => pure (some l)) e F p' := by
  have hb := ofContent_bounds (listLen atoms)
  have hll := listLen_le atoms
  have hle := hat.le
  have hF1 := hF.len
  have hF3 := hF.fuel
  have hhl := hdlrBox.ser_length
  have hhp := hdlrBox.headLen_pos
  obtain ⟨hc1, hc2⟩ := claim_headLen ITEM_LIST (listLen atoms)
  simp only [List.length_append, hc2, List.length_cons, List.length_nil] at hle
  have hm : metaLen atoms = hdlrBox.ser.length + (Size.ofContent (listLen atoms)).len + 4 := rfl
  have hi := claim_len (listLen atoms)
  have a1 : At F p (0 :: [0, 0, 0]) := hat.left
  have a2 := hat.right (n := 4) rfl
  have a3 := a2.right rfl
  refine ⟨_, a3.right hc2, ?_⟩
  rw [parseMeta, P.bind_ok (parseFullHead_at a1 rfl e)]
  simp only [ne_eq, not_true_eq_false, if_false]
  obtain ⟨f, hf⟩ : ∃ f, e.fuel = f + 2 + 1 := ⟨e.fuel - 3, by omega⟩
  have h1 := walk_over (κ := Box) (box := id) (step := fun s _ => s) (handle := fun s h =>
      if h.fourcc = ITEM_LIST then do let a ← parseIlst h.size; pure (some a) else do skipContent h; pure s)
    hF1 (ofContent_content (metaLen atoms) e) [hdlrBox] (f + 2) none 4 (p + 4)
    (fun k hk => by rw [List.mem_singleton.mp hk]; exact mkBox_fits _ _)
    (fun k hk s q hq => by
      rw [List.mem_singleton.mp hk] at hq ⊢
      have : ¬ hdlrBox.hd.fourcc = ITEM_LIST := by decide
      rw [show (id hdlrBox : Box) = hdlrBox from rfl, if_neg this, P.bind_ok (skipContent_box (b := hdlrBox) hq hF)]; rfl)
    (by rw [serL_cons, serL_nil, List.append_nil]; exact a2.left)
    (by rw [serL_cons, serL_nil, List.append_nil]; simp only [id]; omega) (by omega)
  rw [serL_cons, serL_nil, List.append_nil, List.foldl_cons, List.foldl_nil] at h1
  simp only [id] at h1
  show walk _ _ e.fuel none 4 e F (p + 4) = _
  rw [hf]
  refine h1.trans ?_
  rw [walk_last (ofContent_content _ e) (by omega) (claim_at a3.left (by omega) e)
    (by show _ + (Size.ofContent (listLen atoms)).len = _; omega) (by omega)]
  rfl

/-- What is read from a dump is what is read from its item list, whatever that is. -/
theorem dump_over {e F} {atoms : List AtomData} (hF : Fit e F) (hat : At F 0 (dumpRaw atoms)) :
    ∃ p, At F p (atoms.flatMap itemRaw) ∧
      readTag e F 0 = ((parseIlst (Size.ofContent (listLen atoms)) >>= fun l => pure ⟨dumpFtyp, {}, l⟩) e F p).val := by
  have hle := hat.le
  have hF1 := hF.len
  have hF3 := hF.fuel
  have hll := listLen_le atoms
  have hb1 := ofContent_bounds (listLen atoms)
  have hb2 := ofContent_bounds (metaLen atoms)
  have hb3 := ofContent_bounds (udtaLen atoms)
  have hm : metaLen atoms = hdlrBox.ser.length + (Size.ofContent (listLen atoms)).len + 4 := rfl
  have hu : udtaLen atoms = (Size.ofContent (metaLen atoms)).len := rfl
  have hv : moovLen atoms = (Size.ofContent (udtaLen atoms)).len := rfl
  obtain ⟨hc1, hc2⟩ := claim_headLen ITEM_LIST (listLen atoms)
  obtain ⟨hc3, hc4⟩ := claim_headLen METADATA (metaLen atoms)
  obtain ⟨hc5, hc6⟩ := claim_headLen USER_DATA (udtaLen atoms)
  obtain ⟨hc7, hc8⟩ := claim_headLen MOVIE (moovLen atoms)
  rw [dumpRaw] at hat hle
  generalize hft : (⟨false, cc 'f' 't' 'y' 'p', utf8 dumpFtyp⟩ : Box) = ft at hat hle
  have hfit : (⟨false, cc 'f' 't' 'y' 'p', utf8 dumpFtyp⟩ : Box).Fits := by intro _; rw [dumpFtyp_len]; omega
  have hfl : ft.ser.length = 24 := by rw [← hft, Box.ser_length]; simp [dumpFtyp_len, Box.headLen]
  simp only [List.length_append, hc2, hc4, hc6, hc8, hfl, List.length_cons, List.length_nil] at hle
  have a1 := hat.right hfl
  have a2 := a1.right hc8
  have a3 := a2.right hc6
  have a4 := a3.right hc4
  obtain ⟨p', h1, h2⟩ := meta_over hF a4
  refine ⟨p', h1, ?_⟩
  subst hft
  rw [readTag, readTagP, P.bind_ok (parseFtyp_at hF hfit hat.left), hfl, P.bind_ok (remaining_at hF (show 0 + 24 ≤ F.length by omega)),
    P.bind_ok (show getFuel e F _ = .ok (e.fuel, _) from rfl)]
  have hmv : topWalk (F.length - (0 + 24)) e.fuel 0 e F (0 + 24)
      = parseMoov (Size.ofContent (moovLen atoms)) e F (0 + 24 + (claim MOVIE (moovLen atoms)).headLen) := by
    obtain ⟨f, hf⟩ : ∃ f, e.fuel = f + 1 := ⟨e.fuel - 1, by omega⟩
    rw [hf, topWalk, if_neg (by omega), P.bind_ok (claim_at a1.left (by omega) e)]
    rfl
  have h3 : parseMoov (Size.ofContent (moovLen atoms)) e F _ = _ := only_over a2.left (by omega) (by omega)
  have h4 : parseUdta (Size.ofContent (udtaLen atoms)) e F _ = _ := only_over a3.left (by omega) (by omega)
  rw [P.bind_apply, hmv, h3, moovHandle, if_neg (show ¬ USER_DATA = MOVIE_HEADER by decide), if_neg (show ¬ USER_DATA = TRACK by decide),
    if_pos rfl, P.bind_apply, h4, if_pos rfl, P.bind_apply, h2, P.bind_apply, P.bind_apply]
  cases parseIlst (Size.ofContent (listLen atoms)) e F p' <;> rfl

/-- The value made of the first `n` bytes of a UTF-16 text of `n` units. -/
def halved (s : Str) : Out Str :=
  match utf16Dec ((utf16Enc s).take ((utf16Enc s).length / 2)) with
  | some y => .ok y
  | none => .err .utf16StringDecoding

theorem be16_length (u : List Nat) : (Mp4.be16 u).length = 2 * u.length := by
  induction u with
  | nil => rfl
  | cons x l ih => simp only [Mp4.be16, List.flatMap_cons, List.length_append, toBe_length, List.length_cons] at ih ⊢; omega

theorem units16_take (u : List Nat) (n : Nat) (hu : ∀ x ∈ u, x < 65536) (hn : n ≤ 2 * u.length) :
    units16 ((Mp4.be16 u).take n) = u.take (n / 2) := by
  have h1 : Mp4.be16 u = Mp4.be16 (u.take (n / 2)) ++ Mp4.be16 (u.drop (n / 2)) := by
    rw [Mp4.be16, Mp4.be16, Mp4.be16, ← List.flatMap_append, List.take_append_drop]
  have h2 : (Mp4.be16 (u.take (n / 2))).length = 2 * (n / 2) := by
    rw [be16_length, List.length_take]; omega
  have h3 : (Mp4.be16 u).take n = Mp4.be16 (u.take (n / 2)) ++ (Mp4.be16 (u.drop (n / 2))).take (n - 2 * (n / 2)) := by
    rw [h1, List.take_append, h2, List.take_of_length_le (by omega)]
  rw [h3, units16_be16 _ _ (fun x hx => hu x (List.mem_of_mem_take hx)), units16_odd (by rw [List.length_take]; omega), List.append_nil]

theorem itemHandle_over {e F p} {s : ItemSt} {x : Str} (hat : At F p (be32 (typeCode (.utf16 x)) ++ [0, 0, 0, 0] ++ payload (.utf16 x)))
    (hF : Fit e F) : itemHandle s ⟨⟨false, 8 + (8 + (Data.utf16 x).len)⟩, DATA⟩ e F p =
      match halved x with
      | .ok y => .ok ({ s with data := s.data ++ [.utf16 y] }, p + 8 + (Data.utf16 x).len)
      | _ => .err .utf16StringDecoding := by
  have hle := hat.le
  have hF1 := hF.len
  have hF2 := hF.pos
  have a1 : At F p (0 :: [0, 0, 2]) := by
    have := hat.left.left
    rwa [show be32 (typeCode (Data.utf16 x)) = 0 :: [0, 0, 2] from by simp only [typeCode]; decide] at this
  have hl : (Data.utf16 x).len ≤ (payload (.utf16 x)).length := dataLen_le _
  have hlen : (Data.utf16 x).len = (utf16Enc x).length := rfl
  simp only [List.length_append, be32_length, List.length_cons, List.length_nil] at hle
  rw [itemHandle, if_pos rfl, P.bind_ok (parseFullHead_at a1 rfl e)]
  simp only [ne_eq, not_true_eq_false, if_false]
  rw [P.bind_ok (seekCur_lit (i := 4) 4 rfl (by omega))]
  have hc : (⟨false, 8 + (8 + (Data.utf16 x).len)⟩ : Size).contentLen e = .ok (8 + (Data.utf16 x).len) := by
    rw [Size.contentLen, if_neg (by simp), subU]; dsimp only; rw [if_pos (by omega)]; congr 1; omega
  have hs : subU (8 + (Data.utf16 x).len) 8 e = .ok (Data.utf16 x).len := by rw [subU, if_pos (by omega)]; congr 1; omega
  have ha : (allocU8 (Data.utf16 x).len) e = .ok () := by rw [allocU8, if_neg (by omega)]
  rw [P.bind_ok (E.p_ok hc F _), P.bind_ok (E.p_ok hs F _), show beNat [0, 0, 2] = 2 from rfl]
  have a2 : At F (p + 8) (payload (.utf16 x)) := hat.right rfl
  have a3 : At F (p + 8) ((payload (.utf16 x)).take (Data.utf16 x).len) := by
    rw [← List.take_append_drop (Data.utf16 x).len (payload (.utf16 x))] at a2
    exact a2.left
  have hpl : payload (.utf16 x) = Mp4.be16 (utf16Enc x) := utf16be_spec x
  simp only [Data.parse]
  rw [P.bind_apply, P.bind_apply, readUtf16, P.bind_ok (E.p_ok ha F _),
    P.bind_ok (readExact_at' a3 (by rw [List.length_take]; omega) e), hpl, hlen,
    units16_take _ _ (utf16Enc_lt x) (by omega), halved]
  cases utf16Dec ((utf16Enc x).take ((utf16Enc x).length / 2)) <;> rfl

theorem texts_length (i : DataIdent) : (texts i).length ≤ 2 := by cases i <;> simp [texts]

theorem parseItem_over {e F p} {a : AtomData} {ds : List Data} {s : Str} (hF : Fit e F) (hfit : (entryOf a).box.Fits)
    (ha : a.data = ds ++ [.utf16 s]) (hds : ∀ d ∈ ds, noUtf16Text d)
    (hat : At F p (serL Part.box (texts a.ident) ++ a.data.flatMap dataRaw)) :
    ∃ q, parseItem (identFc a.ident) (claimed a) e F p =
      match halved s with
      | .ok y => .ok (⟨a.ident, ds ++ [.utf16 y]⟩, q)
      | _ => .err .utf16StringDecoding := by
  have hlt := entry_lt hfit
  have hcl := claimed_le a
  have hle := hat.le
  have hF3 := hF.fuel
  have hgood : serL Part.box (texts a.ident) ++ a.data.flatMap dataRaw
      = serL Part.box (texts a.ident ++ ds.map dataPart) ++ dataRaw (.utf16 s) := by
    have : ds.flatMap dataRaw = serL Part.box (ds.map dataPart) := by
      rw [serL_map, List.flatMap_def, List.flatMap_def, List.map_congr_left fun d hd => dataRaw_eq (hds d hd)]
    rw [ha, List.flatMap_append, List.flatMap_cons, List.flatMap_nil, List.append_nil, serL_append, this, List.append_assoc]
  rw [hgood] at hat hle
  have hn : (serL Part.box (texts a.ident ++ ds.map dataPart)).length + (16 + (Data.utf16 s).len) = claimed a := by
    have : (serL Part.box (ds.map dataPart)).length = (ds.map fun d => 16 + d.len).sum := dataParts_length hds
    rw [claimed, ha, serL_append, List.length_append, List.map_append, List.sum_append, List.map_cons, List.sum_cons, List.map_nil, List.sum_nil]
    omega
  have h8 := serL_length_le Part.box (texts a.ident ++ ds.map dataPart)
  have hdl : 16 ≤ (dataRaw (.utf16 s)).length := by
    simp only [dataRaw, small_head, List.length_append, be32_length, List.length_cons, List.length_nil, DATA, Fourcc.bytes]
    omega
  rw [List.length_append] at hle
  obtain ⟨f, hf⟩ : ∃ f, e.fuel = f + 2 + (texts a.ident ++ ds.map dataPart).length :=
    ⟨e.fuel - 2 - (texts a.ident ++ ds.map dataPart).length, by omega⟩
  have a2 := hat.right rfl
  rw [dataRaw] at a2
  have h0 := itemHandle_over (s := (texts a.ident ++ ds.map dataPart).foldl partStep {}) (a2.right (n := 8) (by rw [small_head]; simp [be32_length, Fourcc.bytes])) hF
  have h1 : loop (pure (claimed a)) itemHandle {} 0 e F p
      = itemHandle ((texts a.ident ++ ds.map dataPart).foldl partStep {}) ⟨⟨false, 8 + (8 + (Data.utf16 s).len)⟩, DATA⟩ e F
          (p + (serL Part.box (texts a.ident ++ ds.map dataPart)).length + 8) := by
    show walk (pure (claimed a)) itemHandle e.fuel {} 0 e F p = _
    rw [hf, walk_over (box := Part.box) (step := partStep) hF.len (show (pure (claimed a) : E Nat) e = .ok (claimed a) from rfl)
      (texts a.ident ++ ds.map dataPart) _ _ _ _
      (fun k hk => by
        rcases List.mem_append.mp hk with hk | hk
        · exact (texts_wf hfit hk).1
        · obtain ⟨d, hd, rfl⟩ := List.mem_map.mp hk
          exact (data_wf hfit (by rw [ha]; exact List.mem_append_left _ hd)).1)
      (fun k hk st q hq => itemHandle_at st hF (by
        rcases List.mem_append.mp hk with hk | hk
        · exact texts_wf hfit hk
        · obtain ⟨d, hd, rfl⟩ := List.mem_map.mp hk
          exact data_wf hfit (by rw [ha]; exact List.mem_append_left _ hd)) hq)
      hat.left (by omega) (by omega),
      walk_last (show (pure (claimed a) : E Nat) e = .ok (claimed a) from rfl) (by omega) (small_at a2.left (by omega) e)
        (by show _ + (8 + (8 + (Data.utf16 s).len)) = _; omega) (by omega)]
  rw [h0, partFold] at h1
  simp only [List.nil_append, List.filterMap_append, values_texts, values_of_dataParts, means_of_dataParts, names_of_dataParts,
    List.append_nil, Option.or_none] at h1
  rw [parseItem, P.bind_apply, h1]
  cases halved s with
  | ok y =>
    refine ⟨p + (serL Part.box (texts a.ident ++ ds.map dataPart)).length + 8 + 8 + (Data.utf16 s).len, ?_⟩
    dsimp only
    rw [P.if_apply, if_neg (by simp), P.pure_apply]
    have : itemIdent (identFc a.ident) ((texts a.ident).filterMap Part.mean?).getLast? ((texts a.ident).filterMap Part.name?).getLast? = a.ident := by
      cases a.ident <;> simp [texts, identFc, itemIdent, Part.mean?, Part.name?]
      rfl
    rw [this]
  | _ => exact ⟨0, rfl⟩

theorem parseIlst_over {e F p} {L : List AtomData} {a : AtomData} {ds : List Data} {s : Str} (hF : Fit e F)
    (hfit : ∀ x ∈ L ++ [a], (entryOf x).box.Fits) (hL : ∀ x ∈ L, Visible x ∧ ∀ d ∈ x.data, noUtf16Text d)
    (hv : Visible a) (ha : a.data = ds ++ [.utf16 s]) (hds : ∀ d ∈ ds, noUtf16Text d) (hd : ((L ++ [a]).map (·.ident)).Nodup)
    (hat : At F p ((L ++ [a]).flatMap itemRaw)) :
    ∃ q, parseIlst (Size.ofContent (listLen (L ++ [a]))) e F p =
      match halved s with
      | .ok y => .ok (L ++ [⟨a.ident, ds ++ [.utf16 y]⟩], q)
      | _ => .err .utf16StringDecoding := by
  have hle := hat.le
  have hF1 := hF.len
  have hF3 := hF.fuel
  have hll := listLen_le (L ++ [a])
  obtain ⟨g1, g2⟩ := goodRaw L (fun x hx => (hL x hx).2)
  have hsum : listLen (L ++ [a]) = listLen L + (8 + claimed a) := by
    simp only [listLen, List.map_append, List.sum_append, List.map_cons, List.sum_cons, List.map_nil, List.sum_nil]; omega
  have hfa := hfit a (by simp)
  have hlt := entry_lt hfa
  have hcl := claimed_le a
  have h8 := serL_length_le (fun a => (entryOf a).box) L
  have hal := raw_le (a := a)
  rw [List.flatMap_append, List.flatMap_cons, List.flatMap_nil, List.append_nil, g1] at hat hle
  rw [List.length_append] at hle
  obtain ⟨f, hf⟩ : ∃ f, e.fuel = f + 2 + L.length := ⟨e.fuel - 2 - L.length, by omega⟩
  have a2 := hat.right rfl
  rw [itemRaw] at a2
  obtain ⟨q, h5⟩ := parseItem_over hF hfa ha hds (a2.right (n := 8) (by rw [small_head]; simp [be32_length, Fourcc.bytes]))
  have hc : (⟨false, 8 + claimed a⟩ : Size).contentLen e = .ok (claimed a) := by
    rw [Size.contentLen, if_neg (by simp), subU]; dsimp only; rw [if_pos (by omega)]; congr 1; omega
  refine ⟨q, ?_⟩
  rw [parseIlst]
  show walk _ _ e.fuel [] 0 e F p = _
  rw [hf, walk_over (box := fun a => (entryOf a).box) (step := mergeItem) hF1 (ofContent_content _ e) L _ _ _ _
      (fun k hk => hfit k (by simp [hk])) (fun k hk s q hq => goodItem s hF (hfit k (by simp [hk])) (hL k hk).1 hq)
      hat.left (by omega) (by omega),
    walk_last (ofContent_content _ e) (by omega) (small_at a2.left (by omega) e) (by show _ + (8 + claimed a) = _; omega) (by omega),
    if_neg (show ¬ (⟨⟨false, 8 + claimed a⟩, identFc a.ident⟩ : Head).fourcc = FREE from identFc_ne hv),
    P.bind_ok (E.p_ok hc F _), P.bind_apply, h5]
  rw [foldl_merge L [] (by
    rw [List.nil_append]
    rw [List.map_append] at hd
    exact (List.nodup_append.mp hd).1), List.nil_append]
  cases halved s with
  | ok y =>
    dsimp only
    rw [P.pure_apply, mergeItem_new]
    intro x hx he
    rw [List.map_append, List.nodup_append] at hd
    exact hd.2.2 x.ident (List.mem_map_of_mem hx) a.ident (by simp) he
  | _ => rfl

end Mp4
