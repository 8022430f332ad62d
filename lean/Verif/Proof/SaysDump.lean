import Verif.Proof.SaysWrite
import Verif.Proof.Emit
/-
What is written, and what is reported, when a dump fails.
-/
namespace Mp4
open Spec

theorem owned_nil {α β : Type} : owned ([] : List (α × List β)) = [] := rfl

theorem owned_cons {α β : Type} (p : α × List β) (ps : List (α × List β)) :
    owned (p :: ps) = p.2.map (fun b => (p.1, b)) ++ owned ps := rfl

theorem owned_append {α β : Type} (a b : List (α × List β)) : owned (a ++ b) = owned a ++ owned b := by
  unfold owned; rw [List.flatMap_append]

theorem owned_map {α α' β : Type} (f : α → α') : ∀ ps : List (α × List β),
    owned (ps.map fun p => (f p.1, p.2)) = (owned ps).map fun x => (f x.1, x.2)
  | [] => rfl
  | p :: ps => by
    rw [List.map_cons, owned_cons, owned_cons, owned_map f ps, List.map_append, List.map_map]
    rfl

/-- A writer with little room: it gets the first bytes, and the error is that of the owner of the first byte that does
not fit. -/
theorem fillRoom_eq (last : Out Unit) : ∀ (cs : List (Str × Bytes)) (room : Nat),
    fillRoom last room cs = (((owned cs).take room).map (·.2),
      match (owned cs)[room]? with
      | some x => .err .io x.1
      | none => last.say [])
  | [], room => by rw [fillRoom, owned_nil]; simp
  | c :: cs, room => by
    rw [fillRoom, owned_cons]
    have hl : (c.2.map fun b => (c.1, b)).length = c.2.length := List.length_map ..
    split
    · rename_i h
      rw [fillRoom_eq last cs, List.take_append, hl, List.take_of_length_le (l := c.2.map fun b => (c.1, b)) (by omega), List.map_append, List.map_map,
        List.getElem?_append_right (by omega), hl]
      refine Prod.ext ?_ rfl
      show c.2 ++ _ = List.map _ c.2 ++ _
      congr 1
      exact (List.map_id' c.2).symm
    · rename_i h
      rw [List.take_append_of_le_length (by omega), List.getElem?_append_left (by omega), ← List.map_take, List.map_map,
        List.getElem?_map, List.getElem?_eq_getElem (by omega)]
      refine Prod.ext ?_ rfl
      exact (List.map_id' _).symm

/-- Serialising gives these parts, each with the path of the atom it belongs to. -/
def EmitsP (m : WrD Unit) (parts : List (List Fourcc × Bytes)) : Prop :=
  ∀ e, ∃ cs, m e = (cs, .ok ()) ∧ owned cs = (owned parts).map fun x => (whileWriting x.1 [], x.2)

theorem EmitsP.eq {m : WrD Unit} {p q : List (List Fourcc × Bytes)} (h : EmitsP m p) (hq : owned p = owned q) : EmitsP m q := by
  unfold EmitsP
  rw [← hq]
  exact h

theorem EmitsP.quiet {m : Wr Unit} {b : Bytes} (h : Emits m b) : EmitsP (quietWr m) [([], b)] := by
  intro e
  obtain ⟨cs, h1, h2⟩ := h e
  refine ⟨cs.map fun b => ([], b), ?_, ?_⟩
  · unfold quietWr; rw [h1]
  · subst h2
    clear h1 h
    induction cs with
    | nil => rfl
    | cons c cs ih =>
      rw [List.map_cons, owned_cons, ih]
      simp only [owned_cons, owned_nil, List.flatten_cons, List.map_append, List.map_map, List.append_nil]
      rfl

theorem EmitsP.seq {m n : WrD Unit} {p q : List (List Fourcc × Bytes)} (h1 : EmitsP m p) (h2 : EmitsP n q) :
    EmitsP (do m; n) (p ++ q) := by
  intro e
  obtain ⟨c1, e1, f1⟩ := h1 e
  obtain ⟨c2, e2, f2⟩ := h2 e
  refine ⟨c1 ++ c2, ?_, ?_⟩
  · show WrD.bind m (fun _ => n) e = _
    unfold WrD.bind
    rw [e1]
    show (c1 ++ (n e).1, (n e).2) = _
    rw [e2]
  · rw [owned_append, f1, f2, owned_append, List.map_append]

theorem EmitsP.within {m : WrD Unit} {p : List (List Fourcc × Bytes)} (f : Fourcc) (h : EmitsP m p) :
    EmitsP (withinWr f m) (p.map fun x => (f :: x.1, x.2)) := by
  intro e
  obtain ⟨c1, e1, f1⟩ := h e
  refine ⟨c1.map fun c => (writingText f ++ c.1, c.2), ?_, ?_⟩
  · unfold withinWr; rw [e1]
  · rw [owned_map (fun d => writingText f ++ d), f1, owned_map (fun x => f :: x), List.map_map, List.map_map]
    refine List.map_congr_left fun x _ => ?_
    exact congrArg (·, x.2) (writing_cons f x.1 []).symm

theorem head_emits (f : Fourcc) (body : Bytes) {s : Size} (hs : s = Size.ofContent body.length) :
    Emits (writeHead ⟨s, f⟩) (mkBox f body).head := by
  rw [hs, ← mkBox_size f]
  exact writeHead_emits (mkBox f body)

theorem metaSize_eq {atoms : List AtomData} (h : ∀ a ∈ atoms, Storable a) :
    MetaW.size ⟨some metaHdlr, some atoms⟩ = Size.ofContent (newMeta atoms).ser.length := by
  rw [(writeMeta_emits h).1, mkBox_size]

theorem udtaSize_eq {atoms : List AtomData} (h : ∀ a ∈ atoms, Storable a) :
    udtaSize (some ⟨some metaHdlr, some atoms⟩) = Size.ofContent (newUdta atoms).ser.length := by
  rw [(writeUdta_emits h).1, mkBox_size]

theorem moovSize_eq {atoms : List AtomData} (h : ∀ a ∈ atoms, Storable a) :
    Size.ofContent (lenOrZero udtaSize (some (some ⟨some metaHdlr, some atoms⟩))) = Size.ofContent (newMoov atoms).ser.length := by
  simp only [lenOrZero]
  rw [(writeUdta_emits h).1, size_len, ← newMoov_ser]

theorem dump_parts {atoms : List AtomData} (h : ∀ a ∈ atoms, Storable a) : EmitsP (dumpWrD atoms) (dumpParts atoms) := by
  have hm : EmitsP (writeMetaD ⟨some metaHdlr, some atoms⟩) _ := .within _ (.seq (.quiet (head_emits _ _ (metaSize_eq h)))
    (.seq (.quiet (.seq (.emit [0]) (.emit [0, 0, 0])))
      (.seq (.within _ (.quiet writeHdlr_emits)) (.within _ (.quiet (writeIlst_emits h))))))
  have hu : EmitsP (writeUdtaD (some ⟨some metaHdlr, some atoms⟩)) _ := .within _ (.seq (.quiet (head_emits _ _ (udtaSize_eq h))) hm)
  have hv : EmitsP (writeMoovD (some (some ⟨some metaHdlr, some atoms⟩))) _ :=
    .within _ (.seq (.quiet (head_emits _ _ (moovSize_eq h))) hu)
  unfold dumpWrD
  refine ((EmitsP.quiet (writeFtyp_emits dumpFtyp)).seq hv).eq ?_
  have h1 : (dumpFile atoms).ftypBox = ⟨false, cc 'f' 't' 'y' 'p', utf8 dumpFtyp⟩ := by
    rw [File.ftypBox, dumpFile_ftyp]; rfl
  have h2 : (dumpFile atoms).moovBox = mkBox (cc 'm' 'o' 'o' 'v') (newMoov atoms).ser := by
    simp only [File.moovBox, dumpFile, mkBox]
  unfold dumpParts
  rw [h1, h2]
  simp only [owned_cons, owned_nil, List.map_cons, List.map_nil, List.cons_append, List.nil_append, List.append_nil,
    List.map_append, List.append_assoc]
  rfl

theorem dumpParts_flatten (atoms : List AtomData) : (owned (dumpParts atoms)).map (·.2) = (dumpFile atoms).ser := by
  have h1 : (dumpFile atoms).ftypBox = ⟨false, cc 'f' 't' 'y' 'p', utf8 dumpFtyp⟩ := by
    rw [File.ftypBox, dumpFile_ftyp]; rfl
  have h2 : (dumpFile atoms).moovBox = mkBox (cc 'm' 'o' 'o' 'v') (newMoov atoms).ser := by
    simp only [File.moovBox, dumpFile, mkBox]
  have h3 : ∀ f b, (mkBox f b).ser = (mkBox f b).head ++ b := fun _ _ => rfl
  have h4 : (newMeta atoms).ser = [0, 0, 0, 0] ++ hdlrBox.ser ++ (ilstBox atoms).ser := by
    simp [newMeta, Meta.ser, serL_cons, serL_nil]
  rw [dumpFile_ser, h3, newMoov_ser, h3 (cc 'u' 'd' 't' 'a'), newUdta_ser, h3 (cc 'm' 'e' 't' 'a')]
  conv => rhs; rhs; rhs; rhs; rhs; rw [h4]
  unfold dumpParts
  rw [h1, h2, newMoov_ser, newUdta_ser]
  simp only [owned_cons, owned_nil, List.map_append, List.map_map, List.append_nil, List.map_nil]
  have : ∀ (p : List Fourcc) (b : Bytes), b.map ((fun x : List Fourcc × UInt8 => x.2) ∘ fun b => (p, b)) = b := fun p b => List.map_id' b
  simp only [this, List.append_assoc]
  rfl

end Mp4
