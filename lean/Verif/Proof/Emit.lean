import Verif.Spec.Build
import Verif.Proof.ReadSpec
/-
What the serialisation functions emit.
-/
namespace Mp4
open Spec

theorem Wr.bind_apply {α β} (m : Wr α) (f : α → Wr β) (e) :
    (m >>= f) e = (match m e with
      | (c, .ok a) => ((c ++ (f a e).1, (f a e).2) : List Bytes × Out β)
      | (c, .err k) => (c, .err k)
      | (c, .panic) => (c, .panic)
      | (c, .fuel) => (c, .fuel)) := rfl

/-- `m` succeeds and writes the bytes `b`. -/
def Emits (m : Wr Unit) (b : Bytes) : Prop := ∀ e, ∃ cs, m e = (cs, .ok ()) ∧ cs.flatten = b

theorem Emits.emit (b : Bytes) : Emits (emit b) b := fun _ => ⟨[b], rfl, by simp⟩
theorem Emits.pure : Emits (pure ()) [] := fun _ => ⟨[], rfl, rfl⟩

theorem Emits.seq {m n : Wr Unit} {a b : Bytes} (h1 : Emits m a) (h2 : Emits n b) :
    Emits (do m; n) (a ++ b) := by
  intro e
  obtain ⟨c1, e1, f1⟩ := h1 e
  obtain ⟨c2, e2, f2⟩ := h2 e
  refine ⟨c1 ++ c2, ?_, by simp [f1, f2]⟩
  rw [Wr.bind_apply, e1]
  simp only [e2]

theorem Emits.wr {α} {m : E α} {f : α → Wr Unit} {a : α} {b : Bytes} (h1 : ∀ e, m e = .ok a) (h2 : Emits (f a) b) :
    Emits (do let x ← m.wr; f x) b := by
  intro e
  obtain ⟨c2, e2, f2⟩ := h2 e
  refine ⟨c2, ?_, f2⟩
  rw [Wr.bind_apply, E.wr, h1 e]
  simp [e2]

theorem Emits.eq {m : Wr Unit} {a b : Bytes} (h : Emits m a) (e : a = b) : Emits m b := e ▸ h

theorem Emits.wrAll {α} {f : α → Wr Unit} {b : α → Bytes} : ∀ l : List α, (∀ x ∈ l, Emits (f x) (b x)) →
    Emits (wrAll f l) (l.flatMap b)
  | [], _ => Emits.pure
  | x :: l, h => (h x (by simp)).seq (Emits.wrAll l (fun y hy => h y (by simp [hy])))

/-- The bytes written do not depend on the environment. -/
theorem Emits.apply {m : Wr Unit} {b : Bytes} (h : Emits m b) (e) :
    ((m e).1.flatten, (m e).2) = (b, Out.ok ()) := by
  obtain ⟨c, h1, h2⟩ := h e
  rw [h1, h2]

/-! ### Heads -/

theorem toBe4 (n : Nat) : toBe 4 n = be32 n := toBe_four n
theorem toBe8 (n : Nat) : toBe 8 n = be64 n := toBe_eight n

theorem writeHead_emits (b : Box) : Emits (writeHead b.hd) b.head := by
  unfold writeHead
  rw [Box.head]
  by_cases h : b.ext = true
  · have h' : b.hd.size.ext = true := h
    rw [if_pos h, if_pos h', toBe4, toBe8]
    have hl : b.hd.size.len = b.body.length + 16 := by
      show b.headLen + b.body.length = _
      rw [Box.headLen, if_pos h, Nat.add_comm]
    rw [hl]
    exact ((Emits.emit _).seq ((Emits.emit _).seq (Emits.emit _))).eq (by simp; rfl)
  · have h' : ¬ b.hd.size.ext = true := h
    rw [if_neg h, if_neg h', toBe4]
    have hl : b.hd.size.len = b.body.length + 8 := by
      show b.headLen + b.body.length = _
      rw [Box.headLen, if_neg h, Nat.add_comm]
    rw [hl]
    exact (Emits.emit _).seq (Emits.emit _)

theorem mkBox_size (fc : Fourcc) (body : Bytes) : (mkBox fc body).size = Size.ofContent body.length := by
  unfold mkBox Size.ofContent Box.size Box.headLen
  by_cases h : 2^32 ≤ body.length + 8
  · have h' : body.length + 8 > 2^32 - 1 := by omega
    simp only [h, h', decide_true, if_true]
    congr 1; omega
  · have h' : ¬ body.length + 8 > 2^32 - 1 := by omega
    simp only [h, h', decide_false, if_false]
    simp; omega

theorem mkBox_hd (fc : Fourcc) (body : Bytes) : (mkBox fc body).hd = ⟨Size.ofContent body.length, fc⟩ := by
  rw [← mkBox_size fc]; rfl

theorem mkBox_fits (fc : Fourcc) (body : Bytes) : (mkBox fc body).Fits := by
  intro h; simp only [mkBox, decide_eq_false_iff_not] at h ⊢; omega

theorem mkBox_len (fc : Fourcc) (body : Bytes) : (Size.ofContent body.length).len = (mkBox fc body).ser.length := by
  rw [← mkBox_size fc, Box.ser_length]; rfl

theorem writeBox_emits {fc : Fourcc} {body : Bytes} {m : Wr Unit} (h : Emits m body) :
    Emits (do writeHead ⟨Size.ofContent body.length, fc⟩; m) (mkBox fc body).ser := by
  rw [← mkBox_hd]
  exact (writeHead_emits _).seq h

/-! ### Items -/

theorem writeRaw_emits (d : Data) : Emits d.writeRaw (payload d) := by
  cases d with
  | utf8 s => exact (Emits.emit _).eq (utf8Enc_spec s)
  | utf16 s =>
    refine (Emits.wrAll (b := toBe 2) _ (fun u _ => Emits.emit _)).eq ?_
    exact (utf16be_spec s).symm
  | _ => exact Emits.emit _

theorem dataLen_eq {d : Data} (h : noUtf16Text d) : d.len = (payload d).length := by
  cases d with
  | utf16 s => cases (show s = [] from h); rfl
  | utf8 s => show (utf8Enc s).length = (utf8 s).length; rw [utf8Enc_spec]
  | _ => rfl

theorem dataCode_eq (d : Data) : d.code = typeCode d := by cases d <;> rfl

theorem dataPart_len (d : Data) : (dataPart d).box.ser.length = 16 + (payload d).length := by
  rw [Box.ser_length]
  simp [dataPart, Part.box, Box.headLen, be32_length]; omega

theorem writeDataAtom_emits {d : Data} (h : noUtf16Text d) (hf : 16 + (payload d).length < 2^32) :
    Emits (writeDataAtom d) (dataPart d).box.ser := by
  unfold writeDataAtom
  have hl := dataLen_eq h
  refine Emits.wr (a := 16 + (payload d).length) (fun e => ?_) ?_
  · rw [addU32, hl, Nat.mod_eq_of_lt (by omega), if_pos hf]
  · unfold Data.writeTyped
    refine ((Emits.emit _).seq ((Emits.emit _).seq ((Emits.emit _).seq ((Emits.emit _).seq
      (writeRaw_emits d))))).eq ?_
    rw [toBe4, toBe4, dataCode_eq, Box.ser, Box.head]
    simp only [dataPart, Part.box, Bool.false_eq_true, if_false]
    have hlen : (be32 (typeCode d) ++ [0, 0, 0, 0] ++ payload d).length + 8 = 16 + (payload d).length := by
      simp [be32_length]; omega
    rw [hlen]
    simp; rfl

theorem writeStrAtom_emits {b : Box} {f : Fourcc} {s : Str} (hb : b = ⟨false, f, 0 :: [0, 0, 0] ++ utf8 s⟩)
    (hf : 12 + (utf8 s).length < 2^32) : Emits (writeStrAtom f s) b.ser := by
  subst hb
  unfold writeStrAtom
  refine Emits.wr (a := 12 + (utf8 s).length) (fun e => ?_) ?_
  · rw [addU32, utf8Enc_spec, Nat.mod_eq_of_lt (by omega), if_pos hf]
  · refine ((Emits.emit _).seq ((Emits.emit _).seq ((Emits.emit _).seq (Emits.emit _)))).eq ?_
    rw [toBe4, Box.ser, Box.head, utf8Enc_spec]
    simp only [Bool.false_eq_true, if_false]
    have hlen : (0 :: [0, 0, 0] ++ utf8 s).length + 8 = 12 + (utf8 s).length := by simp; omega
    rw [hlen]
    simp

theorem serL_mem_le {κ} {box : κ → Box} {ks : List κ} {k : κ} (h : k ∈ ks) :
    (box k).ser.length ≤ (serL box ks).length := by
  induction ks with
  | nil => simp at h
  | cons j ks ih =>
    rw [serL_cons, List.length_append]
    rcases List.mem_cons.mp h with rfl | h
    · omega
    · have := ih h; omega

theorem serL_map_length {κ ι} (box : κ → Box) (f : ι → κ) (l : List ι) :
    (serL box (l.map f)).length = (l.map fun x => (box (f x)).ser.length).sum := by
  induction l with
  | nil => rfl
  | cons x l ih => rw [List.map_cons, serL_cons, List.length_append, ih]; simp

theorem dataParts_length {ds : List Data} (h : ∀ d ∈ ds, noUtf16Text d) :
    (serL Part.box (ds.map dataPart)).length = (ds.map fun d => 16 + d.len).sum := by
  rw [serL_map_length]
  congr 1
  apply List.map_congr_left
  intro d hd
  rw [dataPart_len, dataLen_eq (h d hd)]

theorem atomLen_eq {a : AtomData} (h : ∀ d ∈ a.data, noUtf16Text d) : a.len = (entryOf a).box.ser.length := by
  unfold AtomData.len entryOf
  cases a.ident with
  | fourcc f =>
    simp only
    rw [Box.ser_length]
    simp only [Entry.box, Box.headLen, Bool.false_eq_true, if_false]
    rw [dataParts_length h]
  | freeform m n =>
    simp only
    rw [Box.ser_length]
    simp only [Entry.box, Box.headLen, Bool.false_eq_true, if_false, serL_cons, List.length_append]
    rw [dataParts_length h, Box.ser_length, Box.ser_length]
    simp only [Part.box, Box.headLen, Bool.false_eq_true, if_false]
    simp [utf8Enc_spec]; omega

theorem serL_map {κ ι} (box : κ → Box) (f : ι → κ) (l : List ι) :
    serL box (l.map f) = l.flatMap fun x => (box (f x)).ser := by
  unfold serL; rw [List.flatMap_map]

theorem atomWrite_emits {a : AtomData} (h : Storable a) : Emits a.write (entryOf a).box.ser := by
  obtain ⟨h16, hfit⟩ := h
  have hlen := atomLen_eq h16
  have hlt : (entryOf a).box.ser.length < 2^32 := by
    rw [Box.ser_length]
    have hext : (entryOf a).box.ext = false := by unfold entryOf; cases a.ident <;> rfl
    have := hfit hext
    rw [Box.headLen, hext]; simp only [Bool.false_eq_true, if_false]; omega
  have hdata : (serL Part.box (a.data.map dataPart)).length ≤ (entryOf a).box.body.length := by
    unfold entryOf
    cases a.ident <;> simp only [Entry.box]
    · omega
    · rw [serL_cons, serL_cons, List.length_append, List.length_append]; omega
  have hsl := (entryOf a).box.ser_length
  have hd : Emits (wrAll writeDataAtom a.data) (serL Part.box (a.data.map dataPart)) := by
    rw [serL_map]
    refine Emits.wrAll _ (fun d hd => writeDataAtom_emits (h16 d hd) ?_)
    have := serL_mem_le (box := Part.box) (List.mem_map_of_mem (f := dataPart) hd)
    rw [dataPart_len] at this
    omega
  unfold AtomData.write
  rw [hlen]
  unfold entryOf at *
  cases hi : a.ident with
  | fourcc f =>
    simp only [hi] at *
    refine ((Emits.emit _).seq ((Emits.emit _).seq hd)).eq ?_
    rw [toBe4, Box.ser_length, Box.ser, Box.head]
    simp only [Entry.box, Box.headLen, Bool.false_eq_true, if_false]
    rw [Nat.add_comm 8, List.append_assoc]
  | freeform m n =>
    simp only [hi] at *
    have hbl := (Entry.item false (cc '-' '-' '-' '-')
      (.mean false [0, 0, 0] m :: .name false [0, 0, 0] n :: a.data.map dataPart)).box.ser_length
    have hm : 12 + (utf8 m).length < 2^32 := by
      have := serL_mem_le (box := Part.box) (ks := .mean false [0, 0, 0] m :: .name false [0, 0, 0] n :: a.data.map dataPart)
        (k := .mean false [0, 0, 0] m) (by simp)
      rw [Box.ser_length] at this
      simp only [Part.box, Box.headLen, Bool.false_eq_true, if_false] at this
      simp only [List.cons_append, List.length_cons, List.length_append, List.length_nil] at this
      simp only [Entry.box] at hbl hlt
      omega
    have hn : 12 + (utf8 n).length < 2^32 := by
      have := serL_mem_le (box := Part.box) (ks := .mean false [0, 0, 0] m :: .name false [0, 0, 0] n :: a.data.map dataPart)
        (k := .name false [0, 0, 0] n) (by simp)
      rw [Box.ser_length] at this
      simp only [Part.box, Box.headLen, Bool.false_eq_true, if_false] at this
      simp only [List.cons_append, List.length_cons, List.length_append, List.length_nil] at this
      simp only [Entry.box] at hbl hlt
      omega
    refine ((Emits.emit _).seq ((Emits.emit _).seq ((writeStrAtom_emits (f := MEAN) rfl hm).seq
      ((writeStrAtom_emits (f := NAME) rfl hn).seq hd)))).eq ?_
    rw [toBe4, Box.ser_length, Box.ser, Box.head]
    simp only [Entry.box, Box.headLen, Bool.false_eq_true, if_false, serL_cons]
    rw [Nat.add_comm 8]
    simp only [List.append_assoc]
    rfl

theorem serEntries_length {atoms : List AtomData} (h : ∀ a ∈ atoms, Storable a) :
    (serL Entry.box (atoms.map entryOf)).length = (atoms.map AtomData.len).sum := by
  rw [serL_map_length]
  congr 1
  apply List.map_congr_left
  intro a ha
  rw [atomLen_eq (h a ha).1]

theorem ilstSize_eq {atoms : List AtomData} (h : ∀ a ∈ atoms, Storable a) : ilstSize atoms = (ilstBox atoms).size := by
  rw [ilstSize, ← serEntries_length h, ilstBox, mkBox_size]

theorem writeIlst_emits {atoms : List AtomData} (h : ∀ a ∈ atoms, Storable a) :
    Emits (writeIlst atoms) (ilstBox atoms).ser := by
  unfold writeIlst ilstBox
  rw [ilstSize, ← serEntries_length h]
  refine writeBox_emits ?_
  rw [serL_map]
  exact Emits.wrAll _ (fun a ha => atomWrite_emits (h a ha))

theorem metaHdlr_eq : metaHdlr = hdlrBody := by decide

theorem hdlrSize_eq : hdlrSize metaHdlr = hdlrBox.size := by rw [hdlrSize, metaHdlr_eq, hdlrBox, mkBox_size]

theorem writeHdlr_emits : Emits (writeHdlr metaHdlr) hdlrBox.ser := by
  unfold writeHdlr hdlrSize
  rw [metaHdlr_eq]
  exact writeBox_emits (Emits.emit _)

theorem size_len (b : Box) : b.size.len = b.ser.length := by rw [Box.ser_length]; rfl

/-- The atom of a kid in shortest form. -/
theorem metaKid_box (m : Meta) : (metaKid m).box (cc 'm' 'e' 't' 'a') Meta.ser = mkBox (cc 'm' 'e' 't' 'a') m.ser := rfl
theorem udtaKid_box (u : Udta) : (udtaKid u).box = mkBox (cc 'u' 'd' 't' 'a') u.ser := rfl

theorem newMeta_ser_length (atoms : List AtomData) :
    (newMeta atoms).ser.length = hdlrBox.ser.length + (ilstBox atoms).ser.length + 4 := by
  simp [newMeta, Meta.ser, serL_cons, serL_nil]

theorem writeMeta_emits {atoms : List AtomData} (h : ∀ a ∈ atoms, Storable a) :
    (MetaW.size ⟨some metaHdlr, some atoms⟩) = (mkBox (cc 'm' 'e' 't' 'a') (newMeta atoms).ser).size ∧
    Emits (writeMeta ⟨some metaHdlr, some atoms⟩) (mkBox (cc 'm' 'e' 't' 'a') (newMeta atoms).ser).ser := by
  have hs : (MetaW.size ⟨some metaHdlr, some atoms⟩) = Size.ofContent (newMeta atoms).ser.length := by
    rw [MetaW.size, newMeta_ser_length]
    simp only [lenOrZero]
    rw [hdlrSize_eq, ilstSize_eq h, size_len, size_len]
  refine ⟨by rw [hs, mkBox_size], ?_⟩
  unfold writeMeta
  rw [hs]
  refine writeBox_emits ?_
  refine (Emits.seq (Emits.seq (Emits.emit _) (Emits.emit _))
    (writeHdlr_emits.seq (writeIlst_emits h))).eq ?_
  simp [newMeta, Meta.ser, serL_cons, serL_nil]

theorem newUdta_ser (atoms : List AtomData) :
    (newUdta atoms).ser = (mkBox (cc 'm' 'e' 't' 'a') (newMeta atoms).ser).ser := by
  rw [newUdta, Udta.ser, serL_cons, serL_nil, List.append_nil, metaKid_box]

theorem writeUdta_emits {atoms : List AtomData} (h : ∀ a ∈ atoms, Storable a) :
    udtaSize (some ⟨some metaHdlr, some atoms⟩) = (mkBox (cc 'u' 'd' 't' 'a') (newUdta atoms).ser).size ∧
    Emits (writeUdta (some ⟨some metaHdlr, some atoms⟩)) (mkBox (cc 'u' 'd' 't' 'a') (newUdta atoms).ser).ser := by
  have hs : udtaSize (some ⟨some metaHdlr, some atoms⟩) = Size.ofContent (newUdta atoms).ser.length := by
    rw [udtaSize, newUdta_ser]
    simp only [lenOrZero]
    rw [(writeMeta_emits h).1, size_len]
  refine ⟨by rw [hs, mkBox_size], ?_⟩
  unfold writeUdta
  rw [hs]
  refine writeBox_emits ?_
  rw [newUdta_ser]
  exact (writeMeta_emits h).2

theorem newMoov_ser (atoms : List AtomData) :
    (newMoov atoms).ser = (mkBox (cc 'u' 'd' 't' 'a') (newUdta atoms).ser).ser := by
  rw [newMoov, Spec.Moov.ser, serL_cons, serL_nil, List.append_nil, udtaKid_box]

theorem writeMoov_emits {atoms : List AtomData} (h : ∀ a ∈ atoms, Storable a) :
    Emits (writeMoov (some (some ⟨some metaHdlr, some atoms⟩)))
      (mkBox (cc 'm' 'o' 'o' 'v') (newMoov atoms).ser).ser := by
  unfold writeMoov
  simp only [lenOrZero]
  rw [(writeUdta_emits h).1, size_len, ← newMoov_ser]
  refine writeBox_emits ?_
  rw [newMoov_ser]
  exact (writeUdta_emits h).2

theorem writeFtyp_emits (s : Str) : Emits (writeFtyp s) (⟨false, cc 'f' 't' 'y' 'p', utf8 s⟩ : Box).ser := by
  unfold writeFtyp
  rw [utf8Enc_spec]
  refine (Emits.seq ?_ (Emits.emit _))
  have := writeHead_emits ⟨false, cc 'f' 't' 'y' 'p', utf8 s⟩
  have he : (⟨false, cc 'f' 't' 'y' 'p', utf8 s⟩ : Box).hd = ⟨⟨false, (utf8 s).length + 8⟩, FILETYPE⟩ := by
    show (⟨⟨_, _⟩, _⟩ : Head) = _
    rw [Box.headLen]; simp only [Bool.false_eq_true, if_false]; rw [Nat.add_comm]; rfl
  rw [he] at this
  exact this

theorem dumpFile_ftyp (atoms : List AtomData) : (dumpFile atoms).ftyp = dumpFtyp := rfl

theorem dumpFile_ser (atoms : List AtomData) : (dumpFile atoms).ser =
    (⟨false, cc 'f' 't' 'y' 'p', utf8 dumpFtyp⟩ : Box).ser ++
      (mkBox (cc 'm' 'o' 'o' 'v') (newMoov atoms).ser).ser := by
  have h1 : (dumpFile atoms).ftypBox = ⟨false, cc 'f' 't' 'y' 'p', utf8 dumpFtyp⟩ := by
    rw [File.ftypBox, dumpFile_ftyp]; rfl
  have h2 : (dumpFile atoms).moovBox = mkBox (cc 'm' 'o' 'o' 'v') (newMoov atoms).ser := by
    simp only [File.moovBox, dumpFile, mkBox]
  have h3 : (dumpFile atoms).pre = [] := rfl
  have h4 : (dumpFile atoms).post = [] := rfl
  rw [File.ser, h1, h2, h3, h4, serL_nil, List.append_nil, List.append_nil]

theorem dump_emits {atoms : List AtomData} (h : ∀ a ∈ atoms, Storable a) :
    Emits (dumpWr atoms) (dumpFile atoms).ser := by
  rw [dumpFile_ser]
  unfold dumpWr
  generalize dumpFtyp = s
  exact (writeFtyp_emits s).seq (writeMoov_emits h)

/-! ### Content of what is emitted -/

theorem payload_enc {d : Data} : ValueEnc (typeCode d) (payload d) d := by
  cases d with
  | utf16 s =>
    have := ValueEnc.utf16 s [] (by simp)
    rw [List.append_nil] at this; exact this
  | utf8 s => exact .utf8 s
  | reserved b => exact .reserved b
  | jpeg b => exact .jpeg b
  | png b => exact .png b
  | beSigned b => exact .beSigned b
  | bmp b => exact .bmp b

theorem values_of_dataParts (ds : List Data) : (ds.map dataPart).filterMap Part.value? = ds := by
  induction ds with
  | nil => rfl
  | cons d ds ih =>
    rw [List.map_cons, List.filterMap_cons_some (show (dataPart d).value? = some d from rfl), ih]

theorem means_of_dataParts (ds : List Data) : (ds.map dataPart).filterMap Part.mean? = [] := by
  induction ds with
  | nil => rfl
  | cons d ds ih => rw [List.map_cons, List.filterMap_cons_none (show (dataPart d).mean? = none from rfl), ih]

theorem names_of_dataParts (ds : List Data) : (ds.map dataPart).filterMap Part.name? = [] := by
  induction ds with
  | nil => rfl
  | cons d ds ih => rw [List.map_cons, List.filterMap_cons_none (show (dataPart d).name? = none from rfl), ih]

theorem entryOf_decoded (a : AtomData) : (entryOf a).decoded = some (a.ident, a.data) := by
  unfold entryOf
  cases hi : a.ident with
  | fourcc f =>
    simp only [Entry.decoded, itemKey, values_of_dataParts, means_of_dataParts, List.getLast?_nil]
  | freeform m n =>
    simp only [Entry.decoded, itemKey]
    rw [List.filterMap_cons_none (show Part.value? (.mean false [0, 0, 0] m) = none from rfl),
      List.filterMap_cons_none (show Part.value? (.name false [0, 0, 0] n) = none from rfl),
      List.filterMap_cons_some (show Part.mean? (.mean false [0, 0, 0] m) = some m from rfl),
      List.filterMap_cons_none (show Part.mean? (.name false [0, 0, 0] n) = none from rfl),
      List.filterMap_cons_none (show Part.name? (.mean false [0, 0, 0] m) = none from rfl),
      List.filterMap_cons_some (show Part.name? (.name false [0, 0, 0] n) = some n from rfl),
      values_of_dataParts, means_of_dataParts, names_of_dataParts]
    simp

theorem part_fits_of_item {ext fc parts} {p : Part} (hp : p ∈ parts) (he : ext = false)
    (h : (Entry.item ext fc parts).box.Fits) : p.box.Fits := by
  intro hpe
  have h1 := h he
  have h2 := serL_mem_le (box := Part.box) hp
  rw [Box.ser_length] at h2
  have : p.box.headLen = 8 := by rw [Box.headLen, hpe]; rfl
  simp only [Entry.box] at h1
  omega

theorem entryOf_WF {a : AtomData} (h : (entryOf a).box.Fits) (hv : Visible a) : (entryOf a).WF := by
  refine ⟨h, ?_⟩
  obtain ⟨hne, hfree⟩ := hv
  have hd : ∀ {ext fc parts}, (Entry.item ext fc parts).box.Fits → ext = false → ∀ d, dataPart d ∈ parts →
      (dataPart d).WF := fun hF he d hd => ⟨part_fits_of_item hd he hF, rfl, payload_enc⟩
  unfold entryOf at *
  cases hi : a.ident with
  | fourcc f =>
    simp only [hi] at *
    refine ⟨fun hf => hfree (by rw [hf]), ?_, by rw [values_of_dataParts]; exact hne⟩
    intro p hp
    obtain ⟨d, hdm, rfl⟩ := List.mem_map.mp hp
    exact hd h rfl d hp
  | freeform m n =>
    simp only [hi] at *
    refine ⟨by decide, ?_, ?_⟩
    · intro p hp
      rcases List.mem_cons.mp hp with rfl | hp'
      · exact ⟨part_fits_of_item hp rfl h, rfl⟩
      · rcases List.mem_cons.mp hp' with rfl | hp'
        · exact ⟨part_fits_of_item hp rfl h, rfl⟩
        · obtain ⟨d, hdm, rfl⟩ := List.mem_map.mp hp'
          exact hd h rfl d hp
    · rw [List.filterMap_cons_none (show Part.value? (.mean false [0, 0, 0] m) = none from rfl),
        List.filterMap_cons_none (show Part.value? (.name false [0, 0, 0] n) = none from rfl), values_of_dataParts]
      exact hne

theorem decoded_entries (atoms : List AtomData) :
    (atoms.map entryOf).filterMap Entry.decoded = atoms.map fun a => (a.ident, a.data) := by
  induction atoms with
  | nil => rfl
  | cons a atoms ih => rw [List.map_cons, List.filterMap_cons_some (entryOf_decoded a), ih, List.map_cons]

theorem ilst_content {atoms : List AtomData} (h : ∀ a ∈ atoms, (entryOf a).box.Fits ∧ Visible a) :
    IlstBody (ilstBox atoms).body (atoms.map fun a => (a.ident, a.data)) := by
  refine ⟨atoms.map entryOf, ?_, rfl, (decoded_entries atoms).symm⟩
  intro x hx
  obtain ⟨a, ha, rfl⟩ := List.mem_map.mp hx
  exact entryOf_WF (h a ha).1 (h a ha).2

theorem firsts_of_nodup : ∀ ks : List DataIdent, ks.Nodup → firsts ks = ks
  | [], _ => rfl
  | k :: ks, h => by
    rw [List.nodup_cons] at h
    rw [firsts, firsts_of_nodup ks h.2, List.filter_eq_self.mpr]
    intro j hj
    simp only [ne_eq, decide_not, Bool.not_eq_true', decide_eq_false_iff_not]
    exact fun e => h.1 (e ▸ hj)

theorem group_of_nodup {atoms : List AtomData} (h : (atoms.map (·.ident)).Nodup) :
    group (atoms.map fun a => (a.ident, a.data)) = atoms := by
  unfold group
  rw [List.map_map, show (Prod.fst ∘ fun a : AtomData => (a.ident, a.data)) = (·.ident) from rfl,
    firsts_of_nodup _ h, List.map_map]
  have key : ∀ a ∈ atoms, ((atoms.map fun a => (a.ident, a.data)).filter (·.1 = a.ident)).flatMap Prod.snd = a.data := by
    intro a ha
    induction atoms with
    | nil => simp at ha
    | cons b atoms ih =>
      rw [List.map_cons, List.nodup_cons] at h
      rcases List.mem_cons.mp ha with rfl | ha'
      · rw [List.map_cons, List.filter_cons_of_pos (by simp), List.filter_eq_nil_iff.mpr]
        · simp
        · intro x hx hxe
          obtain ⟨c, hc, rfl⟩ := List.mem_map.mp hx
          simp only [decide_eq_true_eq] at hxe
          exact h.1 (List.mem_map.mpr ⟨c, hc, hxe⟩)
      · have hne : ¬ b.ident = a.ident := fun e => h.1 (List.mem_map.mpr ⟨a, ha', e.symm⟩)
        rw [List.map_cons, List.filter_cons_of_neg (by simpa using hne)]
        exact ih h.2 ha'
  conv => rhs; rw [← List.map_id atoms]
  apply List.map_congr_left
  intro a ha
  simp only [Function.comp, id, key a ha]

end Mp4
