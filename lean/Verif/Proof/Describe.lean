import Verif.Model.Describe
import Verif.Proof.Fault
import Verif.Proof.Monad
/-
Without the descriptions, the functions of Model/Describe.lean are those they were made from.
-/
namespace Mp4

/-! ### The stream monad -/

theorem Out.forget_say {α} (d : Str) (r : Out α) : (r.say d).forget = r := by cases r <;> rfl

theorem DOut.forget_front {α} (d : Str) (r : DOut α) : (r.front d).forget = r.forget := by cases r <;> rfl

theorem D.forget_pure {α} (a : α) : D.forget (pure a : D α) = (pure a : P α) := rfl

theorem D.forget_bind {α β} (m : D α) (f : α → D β) : D.forget (m >>= f) = (D.forget m >>= fun a => D.forget (f a)) := by
  funext e F p
  show DOut.forget (D.bind m f e F p) = P.bind (D.forget m) _ e F p
  simp only [D.bind, P.bind, D.forget]
  cases m e F p with
  | ok a => rfl
  | err k d => rfl
  | panic => rfl
  | fuel => rfl

theorem D.forget_say {α} (d : Str) (m : P α) : D.forget (say d m) = m := by
  funext e F p; exact Out.forget_say _ _

theorem D.forget_quiet {α} (m : P α) : D.forget (quiet m) = m := D.forget_say _ _

theorem D.forget_failD {α} (k : ErrKind) (d : Str) : D.forget (failD k d : D α) = fail k := rfl

theorem D.forget_within {α} (f : Fourcc) (m : D α) : D.forget (within f m) = D.forget m := by
  funext e F p; exact DOut.forget_front _ _

theorem D.forget_ite {α} (c : Prop) [Decidable c] (a b : D α) :
    D.forget (if c then a else b) = if c then D.forget a else D.forget b := by split <;> rfl

theorem D.forget_apply {α} (m : D α) (e F p) : (m e F p).forget = D.forget m e F p := rfl

theorem P.bind_pure_eta {α β} (m : P α) (f g : α → P β) (h : ∀ a, f a = g a) : (m >>= f) = (m >>= g) := by
  rw [funext h]

theorem parseHeadD_forget : D.forget parseHeadD = parseHead := by
  simp only [parseHeadD, parseHead, D.forget_bind, D.forget_say, D.forget_ite, D.forget_failD, D.forget_pure]

theorem parseFullHeadD_forget : D.forget parseFullHeadD = parseFullHead := by
  simp only [parseFullHeadD, parseFullHead, D.forget_bind, D.forget_say, D.forget_pure]

theorem walkD_forget {σ} (limit : E Nat) (handle : σ → Head → D σ) : ∀ f s parsed,
    D.forget (walkD limit handle f s parsed) = walk limit (fun s h => D.forget (handle s h)) f s parsed
  | 0, s, parsed => by rw [walkD, walk, D.forget_quiet]
  | f+1, s, parsed => by
    simp only [walkD, walk, D.forget_bind, D.forget_quiet, D.forget_ite, D.forget_pure, parseHeadD_forget, walkD_forget limit handle f]

theorem loopD_forget {σ} (limit : E Nat) (handle : σ → Head → D σ) (s parsed) :
    D.forget (loopD limit handle s parsed) = loop limit (fun s h => D.forget (handle s h)) s parsed := by
  simp only [loopD, loop, D.forget_bind, D.forget_quiet, walkD_forget]

theorem readUtf8D_forget (len : Nat) : D.forget (readUtf8D len) = readUtf8 len := by
  simp only [readUtf8D, readUtf8, D.forget_bind, D.forget_quiet]
  refine P.bind_pure_eta _ _ _ fun b => ?_
  cases utf8Dec b <;> rfl

theorem readUtf16D_forget (len : Nat) : D.forget (readUtf16D len) = readUtf16 len := by
  simp only [readUtf16D, readUtf16, D.forget_bind, D.forget_quiet]
  refine P.bind_pure_eta _ _ _ fun _ => P.bind_pure_eta _ _ _ fun b => ?_
  cases utf16Dec (units16 b) <;> rfl

theorem Data.parseD_forget (t len : Nat) : D.forget (Data.parseD t len) = Data.parse t len := by
  unfold Data.parseD Data.parse
  split <;> first
    | simp only [D.forget_bind, D.forget_quiet, D.forget_pure, readUtf8D_forget, readUtf16D_forget, D.forget_failD]
    | skip

/-! ### Reading -/

theorem parseFtypD_forget : D.forget parseFtypD = parseFtyp := by
  simp only [parseFtypD, parseFtyp, D.forget_bind, D.forget_quiet, D.forget_ite, D.forget_failD, parseHeadD_forget,
    readUtf8D_forget]

theorem parseMvhdD_forget (size : Size) : D.forget (parseMvhdD size) = parseMvhd size := by
  simp only [parseMvhdD, parseMvhd, D.forget_bind, D.forget_quiet, D.forget_ite, D.forget_failD, parseFullHeadD_forget]

theorem parseEsdsD_forget (info : Mp4a) (size : Size) : D.forget (parseEsdsD info size) = parseEsds info size := by
  simp only [parseEsdsD, parseEsds, D.forget_bind, D.forget_quiet, D.forget_ite, D.forget_failD, parseFullHeadD_forget]

theorem parseMp4aD_forget (size : Size) : D.forget (parseMp4aD size) = parseMp4a size := by
  simp only [parseMp4aD, parseMp4a, D.forget_bind, D.forget_quiet, D.forget_ite, D.forget_failD, parseHeadD_forget,
    D.forget_pure, parseEsdsD_forget]

theorem parseStsdD_forget (size : Size) : D.forget (parseStsdD size) = parseStsd size := by
  simp only [parseStsdD, parseStsd, D.forget_bind, D.forget_quiet, D.forget_ite, D.forget_failD, parseFullHeadD_forget,
    loopD_forget, D.forget_within, parseMp4aD_forget, D.forget_pure]

theorem parseStblD_forget (size : Size) : D.forget (parseStblD size) = parseStbl size := by
  simp only [parseStblD, parseStbl, D.forget_bind, D.forget_quiet, D.forget_ite, loopD_forget, D.forget_within,
    parseStsdD_forget, D.forget_pure]

theorem parseMinfD_forget (size : Size) : D.forget (parseMinfD size) = parseMinf size := by
  simp only [parseMinfD, parseMinf, D.forget_bind, D.forget_quiet, D.forget_ite, loopD_forget, D.forget_within,
    parseStblD_forget, D.forget_pure]

theorem parseMdiaD_forget (size : Size) : D.forget (parseMdiaD size) = parseMdia size := by
  simp only [parseMdiaD, parseMdia, D.forget_bind, D.forget_quiet, D.forget_ite, loopD_forget, D.forget_within,
    parseMinfD_forget, D.forget_pure]

theorem parseTrakD_forget (size : Size) : D.forget (parseTrakD size) = parseTrak size := by
  simp only [parseTrakD, parseTrak, D.forget_bind, D.forget_quiet, D.forget_ite, loopD_forget, D.forget_within,
    parseMdiaD_forget, D.forget_pure]

theorem itemHandleD_forget (s : ItemSt) (h : Head) : D.forget (itemHandleD s h) = itemHandle s h := by
  simp only [itemHandleD, itemHandle, D.forget_bind, D.forget_quiet, D.forget_ite, D.forget_failD, parseFullHeadD_forget,
    D.forget_pure, Data.parseD_forget, readUtf8D_forget]

theorem parseItemD_forget (f : Fourcc) (len : Nat) : D.forget (parseItemD f len) = parseItem f len := by
  simp only [parseItemD, parseItem, D.forget_bind, D.forget_ite, D.forget_failD, D.forget_pure, loopD_forget,
    itemHandleD_forget]

theorem parseIlstD_forget (size : Size) : D.forget (parseIlstD size) = parseIlst size := by
  simp only [parseIlstD, parseIlst, D.forget_bind, D.forget_quiet, D.forget_ite, loopD_forget, parseItemD_forget,
    D.forget_pure]

theorem parseMetaD_forget (size : Size) : D.forget (parseMetaD size) = parseMeta size := by
  simp only [parseMetaD, parseMeta, D.forget_bind, D.forget_quiet, D.forget_ite, D.forget_failD, parseFullHeadD_forget,
    loopD_forget, D.forget_within, parseIlstD_forget, D.forget_pure]

theorem parseUdtaD_forget (size : Size) : D.forget (parseUdtaD size) = parseUdta size := by
  simp only [parseUdtaD, parseUdta, D.forget_bind, D.forget_quiet, D.forget_ite, loopD_forget, D.forget_within,
    parseMetaD_forget, D.forget_pure]

theorem moovHandleD_forget (s : Moov) (h : Head) : D.forget (moovHandleD s h) = moovHandle s h := by
  simp only [moovHandleD, moovHandle, D.forget_bind, D.forget_quiet, D.forget_ite, D.forget_within, parseMvhdD_forget,
    parseTrakD_forget, parseUdtaD_forget, D.forget_pure]

theorem parseMoovD_forget (size : Size) : D.forget (parseMoovD size) = parseMoov size := by
  simp only [parseMoovD, parseMoov, loopD_forget, moovHandleD_forget]

theorem topWalkD_forget (len : Nat) : ∀ f parsed, D.forget (topWalkD len f parsed) = topWalk len f parsed
  | 0, parsed => by rw [topWalkD, topWalk, D.forget_quiet]
  | f+1, parsed => by
    simp only [topWalkD, topWalk, D.forget_bind, D.forget_quiet, D.forget_ite, D.forget_failD, parseHeadD_forget,
      D.forget_within, parseMoovD_forget, topWalkD_forget len f]

theorem readTagD_forget : D.forget readTagD = readTagP := by
  simp only [readTagD, readTagP, D.forget_bind, D.forget_quiet, parseFtypD_forget, topWalkD_forget, D.forget_pure]

/-! ### Searching -/

theorem findStblD_forget (size : Size) : D.forget (findStblD size) = findStbl size := by
  simp only [findStblD, findStbl, D.forget_bind, D.forget_quiet, D.forget_ite, loopD_forget, D.forget_within, D.forget_pure]

theorem findMinfD_forget (size : Size) : D.forget (findMinfD size) = findMinf size := by
  simp only [findMinfD, findMinf, D.forget_bind, D.forget_quiet, D.forget_ite, loopD_forget, D.forget_within, D.forget_pure,
    findStblD_forget]

theorem findMdiaD_forget (size : Size) : D.forget (findMdiaD size) = findMdia size := by
  simp only [findMdiaD, findMdia, D.forget_bind, D.forget_quiet, D.forget_ite, loopD_forget, D.forget_within, D.forget_pure,
    findMinfD_forget]

theorem findTrakD_forget (size : Size) : D.forget (findTrakD size) = findTrak size := by
  simp only [findTrakD, findTrak, D.forget_bind, D.forget_quiet, D.forget_ite, loopD_forget, D.forget_within, D.forget_pure,
    findMdiaD_forget]

theorem findMetaD_forget (size : Size) : D.forget (findMetaD size) = findMeta size := by
  simp only [findMetaD, findMeta, D.forget_bind, D.forget_quiet, D.forget_ite, D.forget_failD, parseFullHeadD_forget,
    loopD_forget, D.forget_within, D.forget_pure]

theorem findUdtaD_forget (size : Size) : D.forget (findUdtaD size) = findUdta size := by
  simp only [findUdtaD, findUdta, D.forget_bind, D.forget_quiet, D.forget_ite, loopD_forget, D.forget_within, D.forget_pure,
    findMetaD_forget]

theorem findMoovD_forget (size : Size) : D.forget (findMoovD size) = findMoov size := by
  simp only [findMoovD, findMoov, D.forget_bind, D.forget_quiet, D.forget_ite, loopD_forget, D.forget_within, D.forget_pure,
    findTrakD_forget, findUdtaD_forget]

theorem findTopD_forget : D.forget findTopD = findTop := by
  simp only [findTopD, findTop, D.forget_bind, D.forget_quiet, D.forget_ite, loopD_forget, D.forget_within, D.forget_pure,
    findMoovD_forget, parseFtypD_forget]
  refine P.bind_pure_eta _ _ _ fun _ => P.bind_pure_eta _ _ _ fun _ => P.bind_pure_eta _ _ _ fun s => ?_
  cases s.moov <;> rfl

theorem parseTableD_forget (t : TableKind) (size : Size) : D.forget (parseTableD t size) = parseTable t.width size := by
  simp only [parseTableD, parseTable, D.forget_bind, D.forget_quiet, D.forget_ite, D.forget_within, D.forget_pure,
    D.forget_failD, parseFullHeadD_forget]

theorem preparePhaseD_forget (atoms : List AtomData) : D.forget (preparePhaseD atoms) = preparePhase atoms := by
  simp only [preparePhaseD, preparePhase, D.forget_bind, D.forget_quiet, findTopD_forget]

/-! ### Serialisation -/

theorem WrD.forget_pure {α} (a : α) : WrD.forget (pure a : WrD α) = (pure a : Wr α) := rfl

theorem WrD.forget_bind {α β} (m : WrD α) (f : α → WrD β) :
    WrD.forget (m >>= f) = (WrD.forget m >>= fun a => WrD.forget (f a)) := by
  funext e
  show ((WrD.bind m f e).1.map (·.2), (WrD.bind m f e).2) = Wr.bind (WrD.forget m) _ e
  simp only [WrD.bind, Wr.bind, WrD.forget]
  cases m e with
  | mk c r => cases r <;> simp

theorem WrD.forget_quiet {α} (m : Wr α) : WrD.forget (quietWr m) = m := by
  funext e
  simp only [WrD.forget, quietWr, List.map_map]
  have : ((fun x : Str × Bytes => x.2) ∘ fun b : Bytes => (([] : Str), b)) = id := rfl
  rw [this, List.map_id]

theorem WrD.forget_within {α} (f : Fourcc) (m : WrD α) : WrD.forget (withinWr f m) = WrD.forget m := by
  funext e
  simp only [WrD.forget, withinWr, List.map_map]
  rfl

theorem wrOptD_forget {α} (f : α → WrD Unit) (g : α → Wr Unit) (h : ∀ a, WrD.forget (f a) = g a) (x : Option α) :
    WrD.forget (wrOptD f x) = wrOpt g x := by cases x with
  | none => rfl
  | some a => exact h a

theorem writeHdlrD_forget (h : Bytes) : WrD.forget (writeHdlrD h) = writeHdlr h := by
  rw [writeHdlrD, WrD.forget_within, WrD.forget_quiet]

theorem writeIlstD_forget (a : List AtomData) : WrD.forget (writeIlstD a) = writeIlst a := by
  rw [writeIlstD, WrD.forget_within, WrD.forget_quiet]

theorem writeMetaD_forget (m : MetaW) : WrD.forget (writeMetaD m) = writeMeta m := by
  simp only [writeMetaD, writeMeta, WrD.forget_within, WrD.forget_bind, WrD.forget_quiet,
    wrOptD_forget _ _ writeHdlrD_forget, wrOptD_forget _ _ writeIlstD_forget]

theorem writeUdtaD_forget (u : Option MetaW) : WrD.forget (writeUdtaD u) = writeUdta u := by
  simp only [writeUdtaD, writeUdta, WrD.forget_within, WrD.forget_bind, WrD.forget_quiet,
    wrOptD_forget _ _ writeMetaD_forget]

theorem writeMoovD_forget (u : Option (Option MetaW)) : WrD.forget (writeMoovD u) = writeMoov u := by
  simp only [writeMoovD, writeMoov, WrD.forget_within, WrD.forget_bind, WrD.forget_quiet,
    wrOptD_forget _ _ writeUdtaD_forget]

theorem dumpWrD_forget (a : List AtomData) : WrD.forget (dumpWrD a) = dumpWr a := by
  simp only [dumpWrD, dumpWr, WrD.forget_bind, WrD.forget_quiet, writeMoovD_forget]

theorem newAtomsWrD_forget (p : Plan) (atoms : List AtomData) : WrD.forget (newAtomsWrD p atoms) = newAtomsWr p atoms := by
  unfold newAtomsWrD newAtomsWr
  cases p.newUdta with
  | some a => exact writeUdtaD_forget _
  | none =>
    cases p.newMeta with
    | some a => exact writeMetaD_forget _
    | none => simp only [WrD.forget_bind, wrOptD_forget _ _ writeHdlrD_forget, writeIlstD_forget]

/-! ### Writing to a file -/

theorem FD.forget_pure {α} (a : α) : FD.forget (pure a : FD α) = (pure a : FW α) := rfl

theorem FD.forget_bind {α β} (m : FD α) (f : α → FD β) :
    FD.forget (m >>= f) = (FD.forget m >>= fun a => FD.forget (f a)) := by
  funext fl e s
  show ((FD.bind m f fl e s).1.forget, (FD.bind m f fl e s).2) = FW.bind (FD.forget m) _ fl e s
  simp only [FD.bind, FW.bind, FD.forget]
  cases m fl e s with
  | mk r s' => cases r <;> rfl

theorem FD.forget_say {α} (d : Str) (m : FW α) : FD.forget (sayF d m) = m := by
  funext fl e s
  simp only [FD.forget, sayF, Out.forget_say]

theorem FD.forget_quiet {α} (m : FW α) : FD.forget (quietF m) = m := FD.forget_say _ _

theorem FD.forget_ite {α} (c : Prop) [Decidable c] (a b : FD α) :
    FD.forget (if c then a else b) = if c then FD.forget a else FD.forget b := by split <;> rfl

theorem fdAll_forget {α} (f : α → FD Unit) (g : α → FW Unit) (h : ∀ a, FD.forget (f a) = g a) : ∀ l,
    FD.forget (fdAll f l) = fAll g l
  | [] => rfl
  | x :: xs => by simp only [fdAll, fAll, FD.forget_bind, h, fdAll_forget f g h xs]

theorem fdOpt_forget {α} (f : α → FD Unit) (g : α → FW Unit) (h : ∀ a, FD.forget (f a) = g a) (x : Option α) :
    FD.forget (fdOpt f x) = fOpt g x := by cases x with
  | none => rfl
  | some a => exact h a

theorem fdRead_forget {α} (texts : List Str) (pos : Nat) (p : D α) : FD.forget (fdRead texts pos p) = fRead pos (D.forget p) := by
  funext fl e s
  simp only [FD.forget, fdRead, fRead]
  cases fl.call s.tick with
  | some n => rfl
  | none =>
    have h := congrFun (congrFun (congrFun (D.forget_bind (quiet (seekStart pos)) fun _ => p) e) s.file) 0
    rw [D.forget_quiet] at h
    simp only [← h, D.forget]
    cases (quiet (seekStart pos) >>= fun _ => p) e s.file 0 <;> rfl

theorem fdPatchTable_forget (t : TableKind) (diff : Int) (a : AtomBounds) :
    FD.forget (fdPatchTable t diff a) = fPatchTable t.width diff a := by
  simp only [fdPatchTable, fPatchTable, FD.forget_bind, FD.forget_quiet, fdRead_forget, parseTableD_forget]

theorem fdPatchStbl_forget (diff : Int) (s : StblBounds) : FD.forget (fdPatchStbl diff s) = fPatchStbl diff s := by
  simp only [fdPatchStbl, fPatchStbl, FD.forget_bind, fdOpt_forget _ _ (fdPatchTable_forget stcoKind diff),
    fdOpt_forget _ _ (fdPatchTable_forget co64Kind diff)]
  rfl

theorem fdEmit_forget (m : WrD Unit) : FD.forget (fdEmit m) = fEmit (WrD.forget m) := by
  funext fl e s
  have h : FD.forget (fdAll (fun c => sayF c.1 (fWriteAll c.2)) (m e).1) = fAll fWriteAll ((m e).1.map (·.2)) := by
    induction (m e).1 with
    | nil => rfl
    | cons c cs ih => simp only [fdAll, List.map_cons, fAll, FD.forget_bind, FD.forget_say, ih]
  have h := congrFun (congrFun (congrFun h fl) e) s
  simp only [FD.forget] at h
  simp only [FD.forget, fdEmit, fEmit, WrD.forget, ← h]
  cases fdAll (fun c => sayF c.1 (fWriteAll c.2)) (m e).1 fl e s with
  | mk r s' =>
    cases r with
    | ok a => exact congrArg (·, s') (Out.forget_say _ _)
    | err k d => rfl
    | panic => rfl
    | fuel => rfl

theorem fdWritePhase_forget (mdatPos moov p oldLen moved atoms) :
    FD.forget (fdWritePhase mdatPos moov p oldLen moved atoms) = fWritePhase mdatPos moov p oldLen moved atoms := by
  simp only [fdWritePhase, fWritePhase, FD.forget_bind, FD.forget_quiet, FD.forget_ite, FD.forget_pure, fdEmit_forget,
    newAtomsWrD_forget, fdAll_forget _ _ (fdPatchStbl_forget _)]

theorem writeTagD_forget (fl : Faults) (hfl : fl.search = false) (e : Env) (F : Bytes) (pos : Nat) (atoms : List AtomData) :
    (writeTagD fl e F pos atoms).1.forget = (writeTagF fl e F pos atoms).1
    ∧ (writeTagD fl e F pos atoms).2 = (writeTagF fl e F pos atoms).2 := by
  have h := congrFun (congrFun (congrFun (preparePhaseD_forget atoms) e) F) pos
  simp only [D.forget] at h
  simp only [writeTagD, writeTagF, hfl, Bool.false_eq_true, if_false, ← h]
  cases preparePhaseD atoms e F pos with
  | ok x =>
    obtain ⟨⟨a, b, c, d, f⟩, q⟩ := x
    have h2 := congrFun (congrFun (congrFun (fdWritePhase_forget a b c d f atoms) fl) e) { file := F, cur := e.rcur 0 }
    simp only [FD.forget] at h2
    simp only [DOut.forget, ← h2]
    exact ⟨trivial, trivial⟩
  | err k d => exact ⟨rfl, rfl⟩
  | panic => exact ⟨rfl, rfl⟩
  | fuel => exact ⟨rfl, rfl⟩

end Mp4
