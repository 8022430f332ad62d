import Verif.Proof.Halves
import Verif.Proof.WriteSpec
import Verif.Spec.Halves
/-
Writing a tag with UTF-16 texts to a file: as writing values of the claimed size, except for the content of the item list.
-/
namespace Mp4
open Spec

theorem standIn_len (d : Data) : (standIn d).len = d.len := by
  cases d <;> simp only [standIn]
  simp [Data.len, utf16Enc_spec]

theorem standIn_plain (d : Data) : noUtf16Text (standIn d) := by
  cases d <;> simp [standIn, noUtf16Text]

theorem claimOf_claimed (a : AtomData) : claimed (claimOf a) = claimed a := by
  simp only [claimed, claimOf, List.map_map]
  congr 2
  exact List.map_congr_left fun d _ => by simp [standIn_len]

theorem claimOf_len (a : AtomData) : (claimOf a).len = a.len := by rw [claimed_len, claimed_len, claimOf_claimed]

theorem listLen_claim (atoms : List AtomData) : listLen (atoms.map claimOf) = listLen atoms := by
  simp only [listLen, List.map_map]
  congr 1
  exact List.map_congr_left fun a _ => by simp [claimOf_claimed]

theorem claimOf_plain (a : AtomData) : ∀ d ∈ (claimOf a).data, noUtf16Text d := by
  intro d hd
  obtain ⟨d, -, rfl⟩ := List.mem_map.mp hd
  exact standIn_plain d

theorem claimOf_body (a : AtomData) : (entryOf (claimOf a)).box.body.length = claimed a := by
  have h1 := claimed_len (claimOf a)
  rw [atomLen_eq (claimOf_plain a), Box.ser_length, claimOf_claimed] at h1
  have h2 : (entryOf (claimOf a)).box.headLen = 8 := by rw [entryOf_eq]; rfl
  omega

theorem claimOf_storable {a : AtomData} (h : (entryOf a).box.Fits) : Storable (claimOf a) := by
  refine ⟨claimOf_plain a, fun _ => ?_⟩
  have := entry_lt h
  have := claimed_le a
  rw [claimOf_body]
  omega

theorem itemRaw_bytes (a : AtomData) : itemRaw a = itemBytes a := by
  have h1 : (entryOf (claimOf a)).box.head = (small (identFc a.ident) (claimed a)).head := by
    rw [small_head, Box.head, claimOf_body, entryOf_eq]; rfl
  have h2 : a.data.flatMap dataRaw = a.data.flatMap fun d => (dataPart (standIn d)).box.head ++ (dataPart d).box.body := by
    rw [List.flatMap_def, List.flatMap_def]
    congr 1
    refine List.map_congr_left fun d _ => ?_
    rw [dataRaw, small_head, Box.head]
    have : (dataPart (standIn d)).box.body.length = 8 + d.len := by
      have h3 := dataPart_len (standIn d)
      rw [Box.ser_length, ← dataLen_eq (standIn_plain d), standIn_len] at h3
      have h4 : (dataPart (standIn d)).box.headLen = 8 := rfl
      omega
    rw [this]
    rfl
  have h3 : serL Part.box (texts a.ident) = serL Part.box (identParts a.ident) := by cases a.ident <;> rfl
  rw [itemRaw, itemBytes, h1, h2, h3, List.append_assoc]

theorem listRaw_bytes (atoms : List AtomData) : atoms.flatMap itemRaw = listBytes atoms := by
  rw [listBytes, List.flatMap_def, List.flatMap_def, List.map_congr_left fun a _ => itemRaw_bytes a]

theorem listRaw_claim (atoms : List AtomData) :
    (atoms.map claimOf).flatMap itemRaw = serL Entry.box ((atoms.map claimOf).map entryOf) := by
  rw [serL_map, List.flatMap_def, List.flatMap_def, List.map_congr_left fun a ha => ?_]
  obtain ⟨a, -, rfl⟩ := List.mem_map.mp ha
  exact itemRaw_eq (claimOf_plain a)

theorem listClaim_eq (atoms : List AtomData) : listClaim atoms = listLen atoms := by
  rw [listClaim, ← listRaw_claim]
  induction atoms with
  | nil => rfl
  | cons a as ih =>
    rw [List.map_cons, List.flatMap_cons, List.length_append, ih, itemRaw_eq (claimOf_plain a), Box.ser_length, claimOf_body]
    have h2 : (entryOf (claimOf a)).box.headLen = 8 := by rw [entryOf_eq]; rfl
    simp only [listLen, List.map_cons, List.sum_cons]
    omega

/-! ### The plan -/

/-- The same plan for other items. -/
def Plan.for (atoms : List AtomData) (p : Plan) : Plan :=
  { p with newUdta := p.newUdta.map fun m => m.map fun m => ⟨m.hdlr, some atoms⟩, newMeta := p.newMeta.map fun m => ⟨m.hdlr, some atoms⟩ }

/-- What is to be inserted. -/
def Plan.Shape (atoms : List AtomData) (p : Plan) : Prop :=
  p.newUdta = some (some ⟨some metaHdlr, some atoms⟩) ∨
  (p.newUdta = none ∧ p.newMeta = some ⟨some metaHdlr, some atoms⟩) ∨
  (p.newUdta = none ∧ p.newMeta = none ∧ (p.newHdlr = none ∨ p.newHdlr = some metaHdlr))

theorem mkPlan_for {mb : MoovBounds} {A B : List AtomData} {e : Env} {p : Plan} (hs : ilstSize A = ilstSize B) (h : mkPlan mb A e = .ok p) :
    p.Shape A ∧ mkPlan mb B e = .ok (p.for B) := by
  have hm : ∀ hd, (⟨hd, some A⟩ : MetaW).size = (⟨hd, some B⟩ : MetaW).size := by
    intro hd; simp only [MetaW.size, lenOrZero, hs]
  have hu : ∀ hd, udtaSize (some ⟨hd, some A⟩) = udtaSize (some ⟨hd, some B⟩) := by
    intro hd; simp only [udtaSize, lenOrZero, hm]
  obtain ⟨bounds, trak, udta⟩ := mb
  unfold mkPlan at h ⊢
  cases udta with
  | none =>
    simp only [Option.bind_none, Option.isNone_none, if_true] at h ⊢
    obtain ⟨⟨ns, ms, diff⟩, h1, h⟩ := E.bind_inv h
    obtain ⟨⟨ns2, ms2⟩, h2, h⟩ := E.bind_inv h
    obtain ⟨⟨ns3, ms3⟩, h3, h⟩ := E.bind_inv h
    obtain ⟨d, h4, h⟩ := E.bind_inv h
    obtain rfl := E.pure_inv h
    dsimp only at h1 h2 h3 h4
    refine ⟨.inl rfl, ?_⟩
    rw [hu] at h4
    rw [E.bind_ok h1]; try dsimp only
    rw [E.bind_ok h2]; try dsimp only
    rw [E.bind_ok h3]; try dsimp only
    rw [E.bind_ok h4]
    rfl
  | some u =>
    obtain ⟨ub, mt⟩ := u
    cases mt with
    | none =>
      simp only [Option.bind_none, Option.bind_some, Option.isNone_none, if_true] at h ⊢
      obtain ⟨⟨ns, ms, diff⟩, h1, h⟩ := E.bind_inv h
      obtain ⟨⟨ns2, ms2⟩, h2, h⟩ := E.bind_inv h
      obtain ⟨⟨ns3, ms3⟩, h3, h⟩ := E.bind_inv h
      obtain ⟨d, h4, h⟩ := E.bind_inv h
      obtain rfl := E.pure_inv h
      dsimp only at h1 h2 h3 h4
      refine ⟨.inr (.inl ⟨rfl, rfl⟩), ?_⟩
      rw [hm] at h4
      rw [E.bind_ok h1]; try dsimp only
      rw [E.bind_ok h2]; try dsimp only
      rw [E.bind_ok h3]; try dsimp only
      rw [E.bind_ok h4]
      rfl
    | some m =>
      simp only [Option.bind_some, hs] at h ⊢
      obtain ⟨⟨ns, ms, diff⟩, h1, h⟩ := E.bind_inv h
      obtain ⟨⟨ns2, ms2⟩, h2, h⟩ := E.bind_inv h
      obtain ⟨⟨ns3, ms3⟩, h3, h⟩ := E.bind_inv h
      obtain ⟨d, h4, h⟩ := E.bind_inv h
      obtain rfl := E.pure_inv h
      refine ⟨.inr (.inr ⟨rfl, rfl, ?_⟩), ?_⟩
      · dsimp only; split <;> simp
      · rw [E.bind_ok h1]; try dsimp only
        rw [E.bind_ok h2]; try dsimp only
        rw [E.bind_ok h3]; try dsimp only
        rw [E.bind_ok h4]
        rfl

/-- The same atoms are inserted, except for the content of the item list. -/
theorem shape_emits {A : List AtomData} {p : Plan} (h : p.Shape A) : ∃ H : Bytes, ∀ B, listLen B = listLen A →
    (∀ a ∈ B, (entryOf a).box.Fits) → Emits (newAtomsWr (p.for B) B) (H ++ B.flatMap itemRaw) := by
  rcases h with h | ⟨h1, h2⟩ | ⟨h1, h2, h3⟩
  · refine ⟨(claim USER_DATA (udtaLen A)).head ++ ((claim METADATA (metaLen A)).head ++
      ([0, 0, 0, 0] ++ (hdlrBox.ser ++ (claim ITEM_LIST (listLen A)).head))), fun B hl hB => ?_⟩
    refine (?_ : Emits _ _).eq (by simp only [List.append_assoc]; rfl)
    rotate_left
    · simp only [newAtomsWr, Plan.for, h, Option.map_some]
      have := writeUdta_raw hB
      simp only [udtaLen, metaLen, hl] at this ⊢
      exact this
  · refine ⟨(claim METADATA (metaLen A)).head ++ ([0, 0, 0, 0] ++ (hdlrBox.ser ++ (claim ITEM_LIST (listLen A)).head)), fun B hl hB => ?_⟩
    refine (?_ : Emits _ _).eq (by simp only [List.append_assoc]; rfl)
    rotate_left
    · simp only [newAtomsWr, Plan.for, h1, h2, Option.map_some, Option.map_none]
      have := writeMeta_raw hB
      simp only [metaLen, hl] at this ⊢
      exact this
  · rcases h3 with h3 | h3
    · refine ⟨(claim ITEM_LIST (listLen A)).head, fun B hl hB => ?_⟩
      simp only [newAtomsWr, Plan.for, h1, h2, h3, Option.map_none]
      have := writeIlst_raw hB
      rw [hl] at this
      exact (Emits.seq Emits.pure this).eq (List.nil_append _)
    · refine ⟨hdlrBox.ser ++ (claim ITEM_LIST (listLen A)).head, fun B hl hB => ?_⟩
      simp only [newAtomsWr, Plan.for, h1, h2, h3, Option.map_none, List.append_assoc]
      have := writeIlst_raw hB
      rw [hl] at this
      exact Emits.seq writeHdlr_emits this

theorem Emits.unique {w : Wr Unit} {a b : Bytes} (e : Env) (h1 : Emits w a) (h2 : Emits w b) : a = b := by
  obtain ⟨c, h3, rfl⟩ := h1 e
  obtain ⟨d, h4, rfl⟩ := h2 e
  rw [h3] at h4
  injection h4 with h5 _
  rw [h5]

/-! ### Writing -/

theorem setLen_over (Q R N Z T : Bytes) :
    writeAt (writeAt (fileSetLen (Q ++ R) (Q.length + N.length + T.length)) Q.length (N ++ Z)) (Q.length + N.length) T
      = Q ++ N ++ T ++ Z.drop T.length := by
  apply List.ext_getElem?
  intro i
  rw [writeAt_get, writeAt_get, writeAt_length, fileSetLen_get, fileSetLen_length]
  simp only [List.getElem?_append, List.length_append, List.getElem?_drop]
  grind

theorem finish_over {F0 m s e c} {w : Wr Unit} (Q R N Z T : Bytes) (hw : Emits w (N ++ Z)) (h : Sees F0 m s (Q ++ R) c)
    (hm : m ≤ Q.length) (hc : c ≤ Q.length) (hn : (Q ++ N ++ T).length ≤ e.maxPos) :
    ∃ s', (do wSetLen (Q ++ N ++ T).length; wSeekStart Q.length; wEmit w; wSeekStart (Q ++ N).length; wWriteAll T; wFlush : W Unit) e s
        = (.ok (), s') ∧ Sees F0 m s' (Q ++ N ++ T ++ Z.drop T.length) (Q ++ N ++ T).length ∧ s'.buf = [] := by
  simp only [List.length_append] at hn ⊢
  obtain ⟨s1, g1, k1⟩ := wSetLen_sees (e := e) (n := Q.length + N.length + T.length) h (by omega) (by omega) (by omega)
  obtain ⟨s2, g2, k2, -, -⟩ := wSeekStart_sees (e := e) (n := Q.length) k1 (by omega)
  obtain ⟨s3, g3, k3⟩ := wEmit_sees (e := e) hw k2 hm (by rw [fileSetLen_length]; omega)
  obtain ⟨s4, g4, k4, -, -⟩ := wSeekStart_sees (e := e) (n := Q.length + N.length) k3 (by omega)
  obtain ⟨s5, g5, k5⟩ := wWriteAll_sees (e := e) k4 T (by omega) (by rw [writeAt_length, fileSetLen_length]; omega)
  rw [setLen_over] at k5
  obtain ⟨s6, g6, k6, hb, -⟩ := wFlush_sees (e := e) k5
  refine ⟨s6, ?_, k6, hb⟩
  rw [W.bind_ok g1, W.bind_ok g2, W.bind_ok g3, W.bind_ok g4, W.bind_ok g5]
  exact g6

/-- The writing phase after the chunk offset tables have been adjusted. -/
theorem writePhase_over {F0 m e} {s0 s1 : WSt} {c1 : Nat} {mdatPos oldLen : Nat} {mb : MoovBounds} {plan : Plan} {atoms : List AtomData}
    (P : Bytes) (hs : Heads) (R N Z T : Bytes)
    (h1 : (if mdatPos > mb.bounds.pos then wAll (patchStbl plan.lenDiff) (stblAtoms mb) else pure () : W Unit) e s0 = (.ok (), s1))
    (h2 : Sees F0 m s1 (P ++ hs.old ++ R) c1) (hn : hs ≠ []) (hok : hs.OK plan.lenDiff) (hm : m ≤ P.length)
    (hb : plan.updateAtoms.reverse = hs.bounds P.length) (hw : Emits (newAtomsWr plan atoms) (N ++ Z))
    (hst : plan.newAtomsStart = (P ++ hs.old).length)
    (hmv : (plan.movedDataStart : Int) + plan.lenDiff = (P ++ hs.old ++ N).length)
    (hln : (oldLen : Int) + plan.lenDiff = (P ++ hs.old ++ N ++ T).length)
    (hmax : (P ++ hs.old ++ N ++ T).length ≤ e.maxPos) (h62 : (P ++ hs.old ++ N ++ T).length < 2^62) (ho : oldLen < 2^62)
    (hms : plan.movedDataStart < 2^62) :
    ∃ s', writePhase mdatPos mb plan oldLen T atoms e s0 = (.ok (), s') ∧ s'.buf = [] ∧
      Sees F0 m s' (P ++ hs.new ++ N ++ T ++ Z.drop T.length) (P ++ hs.new ++ N ++ T).length := by
  have hl := Heads.length hok
  simp only [List.length_append] at hst hmv hln hmax h62
  obtain ⟨s2, c2, g2, k2, l2⟩ := heads_sees (e := e) hs P R hn hok h2 hm (by simp only [List.length_append]; omega)
  obtain ⟨s3, g3, k3, b3⟩ := finish_over (e := e) (P ++ hs.new) R N Z T hw k2 (by simp only [List.length_append]; omega) l2
    (by simp only [List.length_append]; omega)
  refine ⟨s3, ?_, b3, k3⟩
  have a1 : addI (asI64 oldLen) plan.lenDiff e = .ok ((P ++ hs.new ++ N ++ T).length : Int) := by
    rw [asI64_lt (by omega), addI_ok e (by omega) (by omega)]
    congr 1
    simp only [List.length_append]; omega
  have a2 : addI (asI64 plan.movedDataStart) plan.lenDiff e = .ok ((P ++ hs.new ++ N).length : Int) := by
    rw [asI64_lt (by omega), addI_ok e (by omega) (by omega)]
    congr 1
    simp only [List.length_append]; omega
  have u1 : asU64 ((P ++ hs.new ++ N ++ T).length : Int) = (P ++ hs.new ++ N ++ T).length := by
    apply asU64_nat; simp only [List.length_append]; omega
  have u2 : asU64 ((P ++ hs.new ++ N).length : Int) = (P ++ hs.new ++ N).length := by
    apply asU64_nat; simp only [List.length_append]; omega
  have st : plan.newAtomsStart = (P ++ hs.new).length := by simp only [List.length_append]; omega
  have key : (do
      wAll (patchHead plan.lenDiff) plan.updateAtoms.reverse
      let n ← (addI (asI64 oldLen) plan.lenDiff).w
      wSetLen (asU64 n)
      wSeekStart plan.newAtomsStart
      wEmit (newAtomsWr plan atoms)
      let m ← (addI (asI64 plan.movedDataStart) plan.lenDiff).w
      wSeekStart (asU64 m)
      wWriteAll T
      wFlush : W Unit) e s1 = (.ok (), s3) := by
    rw [hb, W.bind_ok g2, W.bind_ok (E.w_ok a1 s2), u1, st]
    refine Eq.trans ?_ g3
    refine W.bind_congr fun _ _ => W.bind_congr fun _ _ => W.bind_congr fun _ s => ?_
    rw [W.bind_ok (E.w_ok a2 s), u2]
  unfold writePhase
  by_cases hgt : mdatPos > mb.bounds.pos
  · rw [if_pos hgt] at h1
    simp only [if_pos hgt]
    rw [W.bind_ok h1]; exact key
  · rw [if_neg hgt] at h1
    simp only [if_neg hgt]
    have : s0 = s1 := by injection h1
    rw [this]; exact key

theorem Plan.Shape.self {atoms : List AtomData} {p : Plan} (h : p.Shape atoms) : newAtomsWr (p.for atoms) atoms = newAtomsWr p atoms := by
  rcases h with h | ⟨h1, h2⟩ | ⟨h1, h2, h3⟩
  · simp [newAtomsWr, Plan.for, h]
  · simp [newAtomsWr, Plan.for, h1, h2]
  · simp [newAtomsWr, Plan.for, h1, h2]

/-- Writing to a file of which the search finds the movie atom, whatever the bytes `T` behind the movie atom are: as
for items of the claimed sizes, except for the content of the item list, the surplus of which overwrites what is behind the end. -/
theorem writeTagTo_over {e : Env} {f : File} {X T F : Bytes} {real atoms : List AtomData} {c : Nat} (hat : atoms = real.map claimOf)
    (hFdef : F = X ++ f.ftypBox.ser ++ serL id f.pre ++ f.moovBox.ser ++ T) (hF : Fit e F) (hw : f.moov.WF)
    (hfind : findTop e F X.length = .ok ((f.mdatPos X.length, moovB (f.moovPos X.length) f.moovBox f.moov), c))
    (hfits : ∀ a ∈ real, (entryOf a).box.Fits) (ho : F.length < 2^62)
    (hn : (X ++ f.ftypBox.ser ++ serL id f.pre ++ (f.put atoms).moovBox.ser ++ T).length < 2^62)
    (hmax : (X ++ f.ftypBox.ser ++ serL id f.pre ++ (f.put atoms).moovBox.ser ++ T).length ≤ e.maxPos)
    (ht : f.MediaBehind → f.moov.Tables) :
    ∃ s A B, writeTagTo e F X.length real = (.ok (), s) ∧
      X ++ f.ftypBox.ser ++ serL id f.pre ++ (f.put atoms).moovBox.ser ++ T
        = X ++ f.ftypBox.ser ++ serL id f.pre ++ A ++ serL Entry.box (atoms.map entryOf) ++ (B ++ T) ∧
      s.file = X ++ f.ftypBox.ser ++ serL id f.pre ++ A ++ (listBytes real).take (listClaim real) ++ (B ++ T) ++ (listBytes real).drop (listClaim real + (B ++ T).length) ∧
      s.buf = [] ∧ (∀ op ∈ s.trace, f.moovPos X.length ≤ op.lo) ∧ s.trace.foldl Op.apply F = s.file := by
  have hs : ∀ a ∈ atoms, Storable a := by
    intro a ha
    rw [hat] at ha
    obtain ⟨a', ha', rfl⟩ := List.mem_map.mp ha
    exact claimOf_storable (hfits a' ha')
  have hll : listLen atoms = listLen real := by rw [hat, listLen_claim]
  generalize hg : (if f.MediaBehind then Spec.Trak.shift (f.growth atoms) else id) = g
  have hput : (f.put atoms).moovBox = ⟨f.moovExt, cc 'm' 'o' 'o' 'v', serL MoovKid.box (f.moov.put g atoms)⟩ := by
    rw [← hg]; rfl
  have hgl : ∀ ks : List MoovKid, (∀ k ∈ ks, k ∈ f.moov) →
      (serL MoovKid.box (ks.map (MoovKid.mapTrak g))).length = (serL MoovKid.box ks).length := by
    intro ks hks
    rw [← hg]
    split
    · rename_i h
      exact shift_length ks (fun ext t hk => ht h ext t (hks _ hk))
    · rw [mapTrak_id]
  have hgput : (serL MoovKid.box (f.moov.put g atoms)).length = (serL MoovKid.box (f.moov.put id atoms)).length := by
    rcases last_split isUdta f.moov with h | ⟨A, k, B, hm, hk, hB⟩
    · rw [put_none h, put_none h, serL_append, serL_append, List.length_append, List.length_append, mapTrak_id, hgl _ (fun _ h => h)]
    · cases k with
      | udta ext u =>
        rw [hm, put_split hB, put_split hB, serL_append, serL_append, List.length_append, List.length_append, mapTrak_id,
          hgl A (fun k hk => by rw [hm]; simp [hk])]
      | _ => exact absurd hk id
  have hmser : f.moovBox.body = serL MoovKid.box f.moov := rfl
  generalize hP : X ++ f.ftypBox.ser ++ serL id f.pre = P
  have hPl : f.moovPos X.length = P.length := by rw [← hP]; simp only [List.length_append]; rfl
  have hFser : F = P ++ f.moovBox.ser ++ T := by
    rw [← hP]; exact hFdef
  rw [hP] at hn hmax
  generalize hN : P ++ (f.put atoms).moovBox.ser ++ T = N at hn hmax ⊢
  have hNser : N = P ++ (⟨f.moovExt, cc 'm' 'o' 'o' 'v', serL MoovKid.box (f.moov.put g atoms)⟩ : Box).ser ++ T := by
    rw [← hN, hput]
  have ho' := ho
  have hn' := hn
  rw [hFser] at ho'
  rw [hNser] at hn'
  simp only [List.length_append, Box.ser_length] at ho' hn'
  obtain ⟨pl⟩ := exists_place (e := e) (q := f.moovPos X.length) (b := f.moovBox) (m := f.moov) hs hmser
    (by rw [hPl, Box.ser_length]; omega) (by omega) hw
  have hsl : (serL MoovKid.box f.moov).length = (serL MoovKid.box pl.before).length + pl.inner.old.length + pl.old.length + pl.rest.length := by
    rw [pl.ser]; simp only [List.length_append]
  have hil := Heads.length pl.ok
  have hpl' : (serL MoovKid.box (f.moov.put g atoms)).length = (serL MoovKid.box pl.before).length + pl.inner.old.length + pl.new.length + pl.rest.length := by
    rw [pl.put g]; simp only [List.length_append]; rw [hgl _ pl.sub, hil]
  have hgrow : f.growth atoms = (pl.new.length : Int) - pl.old.length := by
    have h1 : (f.moov.put id atoms).ser.length = (serL MoovKid.box (f.moov.put g atoms)).length := hgput.symm
    have h2 : f.moov.ser.length = (serL MoovKid.box f.moov).length := rfl
    rw [File.growth, h1, h2]; omega
  have hmh : (⟨f.moovExt, cc 'm' 'o' 'o' 'v', serL MoovKid.box (f.moov.put g atoms)⟩ : Box).headLen = f.moovBox.headLen := rfl
  rw [hmh] at hn'
  rw [hmser] at ho'
  obtain ⟨R, hR⟩ := pl.mapped g
  have hRl : R.length = pl.old.length + pl.rest.length := by
    have := congrArg List.length hR
    rw [hgl _ (fun _ h => h), hsl, List.length_append, List.length_append, hgl _ pl.sub] at this
    omega
  obtain ⟨hshape, hplan⟩ := mkPlan_for (B := real) (by rw [ilstSize_raw, ilstSize_raw, hll]) pl.plans
  obtain ⟨H, hH⟩ := shape_emits hshape
  have hnew0 : pl.new = H ++ serL Entry.box (atoms.map entryOf) := by
    have h1 := hH atoms rfl (fun a ha => (hs a ha).2)
    rw [hshape.self] at h1
    rw [Emits.unique e pl.emits h1, hat, listRaw_claim]
  have hemit := hH real hll.symm hfits
  have hlc : (serL Entry.box (atoms.map entryOf)).length = listClaim real := by rw [hat]; rfl
  have hle : listClaim real ≤ (listBytes real).length := by
    rw [listClaim_eq, ← listRaw_bytes]; exact listLen_le real
  rw [listRaw_bytes, ← List.take_append_drop (listClaim real) (listBytes real), ← List.append_assoc] at hemit
  generalize hN1 : H ++ (listBytes real).take (listClaim real) = N1 at hemit
  have hN1l : N1.length = pl.new.length := by
    rw [← hN1, hnew0, List.length_append, List.length_append, hlc, List.length_take]; omega
  have hst : (pl.plan.for real).newAtomsStart = _ := pl.start
  have hmv : (pl.plan.for real).movedDataStart = (pl.plan.for real).newAtomsStart + pl.old.length := pl.moved
  have hdf : (pl.plan.for real).lenDiff = _ := pl.diff
  have hbd : (pl.plan.for real).updateAtoms.reverse = _ := pl.bounds
  generalize hpl2 : pl.plan.for real = plan at *
  obtain ⟨c0, hprep⟩ := preparePhase_of (atoms := real) hF hfind hplan
    (by rw [hFser]; simp only [List.length_append, Box.ser_length, hmser]; omega)
  have hdrop : F.drop plan.movedDataStart = pl.rest ++ T := by
    rw [hFser, Box.ser, hmser, pl.ser]
    have : P ++ (f.moovBox.head ++ (serL MoovKid.box pl.before ++ pl.inner.old ++ pl.old ++ pl.rest)) ++ T
        = (P ++ f.moovBox.head ++ serL MoovKid.box pl.before ++ pl.inner.old ++ pl.old) ++ (pl.rest ++ T) := by
      simp only [List.append_assoc]
    rw [this]
    apply List.drop_left'
    simp only [List.length_append, Box.head_length]
    omega
  rw [hdrop] at hprep
  -- the tables
  have htab : ∃ s1 c1, (if f.mdatPos X.length > (moovB (f.moovPos X.length) f.moovBox f.moov).bounds.pos
        then wAll (patchStbl plan.lenDiff) (stblAtoms (moovB (f.moovPos X.length) f.moovBox f.moov)) else pure () : W Unit) e
        { file := F, cur := e.rcur 0 } = (.ok (), s1) ∧
      Sees F (f.moovPos X.length) s1 (P ++ f.moovBox.head ++ serL MoovKid.box (f.moov.map (MoovKid.mapTrak g)) ++ T) c1 := by
    have h0 : Sees F (f.moovPos X.length) { file := F, cur := e.rcur 0 }
        (P ++ f.moovBox.head ++ serL MoovKid.box f.moov ++ T) (e.rcur 0) := by
      refine ⟨?_, rfl, ?_, rfl⟩
      · rw [← show F = P ++ f.moovBox.head ++ serL MoovKid.box f.moov ++ T by
          rw [hFser, Box.ser, hmser]; simp only [List.append_assoc]]
        rfl
      · intro op hop; exact absurd hop (by simp [WSt.flushBuf, WSt.sysWrite])
    by_cases hmb : f.MediaBehind
    · have hgt : f.mdatPos X.length > (moovB (f.moovPos X.length) f.moovBox f.moov).bounds.pos := (mdatPos_gt f X.length).mpr hmb
      rw [if_pos hmb] at hg
      rw [if_pos hgt, stblAtoms_eq, hdf, ← hgrow, ← hg]
      have hmp := moov_patch (e := e) (F0 := F) (m := f.moovPos X.length) (d := f.growth atoms)
        (by rw [hgrow]; omega) f.moov (f.moovPos X.length + f.moovBox.headLen) (by omega) (ht hmb)
      obtain ⟨s1, c1, g1, k1, _⟩ := hmp.2 _ (P ++ f.moovBox.head) (T) (e.rcur 0)
        (by rw [hPl, List.length_append, Box.head_length])
        (by simp only [List.length_append, Box.head_length]; omega)
        (by have := hF.pos; rw [hFser] at this; simp only [List.length_append, Box.head_length, Box.ser_length, hmser] at this ⊢; omega)
        rfl h0
      exact ⟨s1, c1, g1, k1⟩
    · have hgt : ¬ f.mdatPos X.length > (moovB (f.moovPos X.length) f.moovBox f.moov).bounds.pos := fun h => hmb ((mdatPos_gt f X.length).mp h)
      rw [if_neg hmb] at hg
      rw [if_neg hgt, ← hg, mapTrak_id]
      exact ⟨_, _, rfl, h0⟩
  obtain ⟨s1, c1, g1, k1⟩ := htab
  -- the remaining writing
  generalize hnb : (⟨f.moovExt, cc 'm' 'o' 'o' 'v', serL MoovKid.box (f.moov.put g atoms)⟩ : Box) = nb at *
  have hnbb : nb.body = serL MoovKid.box (f.moov.put g atoms) := by rw [← hnb]
  have hnbl : nb.body.length = (serL MoovKid.box (f.moov.put g atoms)).length := by rw [← hnb]
  have hold : Heads.old ((f.moovBox, nb, serL MoovKid.box (pl.before.map (MoovKid.mapTrak g))) :: pl.inner)
      = f.moovBox.head ++ serL MoovKid.box (pl.before.map (MoovKid.mapTrak g)) ++ pl.inner.old := by
    unfold Heads.old; rw [List.flatMap_cons]
  have hnew : Heads.new ((f.moovBox, nb, serL MoovKid.box (pl.before.map (MoovKid.mapTrak g))) :: pl.inner)
      = nb.head ++ serL MoovKid.box (pl.before.map (MoovKid.mapTrak g)) ++ pl.inner.new := by
    unfold Heads.new; rw [List.flatMap_cons]
  have hoktop : Heads.OK plan.lenDiff ((f.moovBox, nb, serL MoovKid.box (pl.before.map (MoovKid.mapTrak g))) :: pl.inner) := by
    intro h hh
    rcases List.mem_cons.mp hh with rfl | hh
    · refine ⟨?_, ?_, ?_, ?_, ?_⟩
      · rw [← hnb]; rfl
      · rw [← hnb]; rfl
      · simp only [hnbl, hmser]; omega
      · simp only [hmser]; omega
      · simp only [hnbl]; omega
    · rw [hdf]; exact pl.ok h hh
  have hbl := hgl _ pl.sub
  obtain ⟨s2, g2, b2, k2⟩ := writePhase_over (e := e) (F0 := F) (m := f.moovPos X.length) (atoms := real)
    (oldLen := F.length) (plan := plan) P
    ((f.moovBox, nb, serL MoovKid.box (pl.before.map (MoovKid.mapTrak g))) :: pl.inner) (R ++ T) N1 ((listBytes real).drop (listClaim real)) (pl.rest ++ T)
    g1 (by
      rw [hold]
      rw [hR] at k1
      simpa only [List.append_assoc] using k1)
    (by simp) hoktop (by omega)
    (by rw [← hPl, hbd, Heads.bounds, hbl])
    hemit
    (by rw [hold]; simp only [List.length_append, Box.head_length]; omega)
    (by rw [hold]; simp only [List.length_append, Box.head_length]; omega)
    (by rw [hold, hFser]; simp only [List.length_append, Box.head_length, Box.ser_length, hmser]; omega)
    (by rw [hNser] at hmax; rw [hold]; simp only [List.length_append, Box.head_length, Box.ser_length] at hmax ⊢; omega)
    (by rw [hold]; simp only [List.length_append, Box.head_length]; omega)
    ho (by omega)
  have hfin : P ++ Heads.new ((f.moovBox, nb, serL MoovKid.box (pl.before.map (MoovKid.mapTrak g))) :: pl.inner) ++ pl.new ++ (pl.rest ++ T)
      = N := by
    rw [hnew, hNser, Box.ser, hnbb, pl.put g]
    simp only [List.append_assoc]
  refine ⟨s2.flushBuf, Heads.new ((f.moovBox, nb, serL MoovKid.box (pl.before.map (MoovKid.mapTrak g))) :: pl.inner) ++ H, pl.rest,
    ?_, ?_, ?_, ?_, k2.low, ?_⟩
  · rw [writeTagTo, hprep]
    simp only []
    rw [g2]
  · rw [← hfin, hnew0]; simp only [List.append_assoc]
  · rw [k2.file, ← hN1, List.drop_drop]; simp only [List.append_assoc]
  · rfl
  · exact k2.flush_replay

/-- How many bytes more than claimed. -/
theorem listBytes_length (atoms : List AtomData) : (listBytes atoms).length = listClaim atoms + surplus atoms := by
  rw [listClaim_eq, ← listRaw_bytes]
  have hd : ∀ d : Data, (payload d).length = d.len + units d := by
    intro d
    cases d with
    | utf16 s =>
      show (utf16be s).length = (utf16Enc s).length + (utf16 s).length
      rw [utf16be_spec, utf16Enc_spec]
      generalize utf16 s = l
      induction l with
      | nil => rfl
      | cons x l ih => simp only [Mp4.be16, List.flatMap_cons, List.length_append, toBe_length, List.length_cons] at ih ⊢; omega
    | utf8 s => exact (dataLen_eq (d := .utf8 s) trivial).symm
    | _ => rfl
  have hi : ∀ ds : List Data, (ds.flatMap dataRaw).length
      = (ds.map fun d => 16 + d.len).sum + (ds.map units).sum := by
    intro ds
    induction ds with
    | nil => rfl
    | cons d ds ih =>
      rw [List.flatMap_cons, List.length_append, ih, List.map_cons, List.map_cons, List.sum_cons, List.sum_cons]
      have : (dataRaw d).length = 16 + (payload d).length := by
        simp only [dataRaw, small_head, List.length_append, be32_length, List.length_cons, List.length_nil, DATA, Fourcc.bytes]
        omega
      rw [this, hd d]
      omega
  induction atoms with
  | nil => rfl
  | cons a as ih =>
    rw [List.flatMap_cons, List.length_append, ih]
    simp only [itemRaw, small_head, List.length_append, be32_length, List.length_cons, List.length_nil, Fourcc.bytes, hi, listLen, surplus,
      List.map_cons, List.sum_cons]
    have : (serL Part.box (texts a.ident)).length + (a.data.map fun d => 16 + d.len).sum = claimed a := rfl
    omega

end Mp4
