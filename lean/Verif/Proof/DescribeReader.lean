import Verif.Model.DescribeReader
import Verif.Proof.Reader
import Verif.Proof.Describe
/-
Without the descriptions, the functions of Model/DescribeReader.lean are those of Model/Reader.lean.
-/
namespace Mp4

theorem RD.forget_pure {α} (a : α) : RD.forget (pure a : RD α) = (pure a : R α) := rfl

theorem RD.forget_bind {α β} (m : RD α) (f : α → RD β) : RD.forget (m >>= f) = (RD.forget m >>= fun a => RD.forget (f a)) := by
  funext c e F s
  show ((RD.bind m f c e F s).1.forget, (RD.bind m f c e F s).2) = R.bind (RD.forget m) _ c e F s
  simp only [RD.bind, R.bind, RD.forget]
  rcases m c e F s with ⟨o, s'⟩
  cases o <;> rfl

theorem RD.forget_say {α} (d : Str) (m : R α) : RD.forget (sayR d m) = m := by
  funext c e F s
  simp only [RD.forget, sayR, Out.forget_say]

theorem RD.forget_quiet {α} (m : R α) : RD.forget (quietR m) = m := RD.forget_say _ _

theorem RD.forget_fail {α} (k : ErrKind) (d : Str) : RD.forget (failRD k d : RD α) = failR k := rfl

theorem RD.forget_within {α} (f : Fourcc) (m : RD α) : RD.forget (withinR f m) = RD.forget m := by
  funext c e F s
  simp only [RD.forget, withinR, DOut.forget_front]

theorem RD.forget_ite {α} (c : Prop) [Decidable c] (a b : RD α) :
    RD.forget (if c then a else b) = if c then RD.forget a else RD.forget b := by split <;> rfl

theorem R.bind_pure_eta {α β} (m : R α) (f g : α → R β) (h : ∀ a, f a = g a) : (m >>= f) = (m >>= g) := by
  rw [funext h]

theorem parseHeadRD_forget : RD.forget parseHeadRD = parseHeadR := by
  simp only [parseHeadRD, parseHeadR, RD.forget_bind, RD.forget_say, RD.forget_ite, RD.forget_fail, RD.forget_pure]

theorem parseFullHeadRD_forget : RD.forget parseFullHeadRD = parseFullHeadR := by
  simp only [parseFullHeadRD, parseFullHeadR, RD.forget_bind, RD.forget_say, RD.forget_pure]

theorem walkRD_forget {σ} (limit : E Nat) (handle : σ → Head → RD σ) : ∀ f s parsed,
    RD.forget (walkRD limit handle f s parsed) = walkR limit (fun s h => RD.forget (handle s h)) f s parsed
  | 0, s, parsed => by rw [walkRD, walkR, RD.forget_quiet]
  | f+1, s, parsed => by
    simp only [walkRD, walkR, RD.forget_bind, RD.forget_quiet, RD.forget_ite, RD.forget_pure, parseHeadRD_forget, walkRD_forget limit handle f]

theorem loopRD_forget {σ} (limit : E Nat) (handle : σ → Head → RD σ) (s parsed) :
    RD.forget (loopRD limit handle s parsed) = loopR limit (fun s h => RD.forget (handle s h)) s parsed := by
  simp only [loopRD, loopR, RD.forget_bind, RD.forget_quiet, walkRD_forget]

theorem readUtf8RD_forget (len : Nat) : RD.forget (readUtf8RD len) = readUtf8R len := by
  simp only [readUtf8RD, readUtf8R, RD.forget_bind, RD.forget_quiet]
  refine R.bind_pure_eta _ _ _ fun b => ?_
  cases utf8Dec b <;> rfl

theorem readUtf16RD_forget (len : Nat) : RD.forget (readUtf16RD len) = readUtf16R len := by
  simp only [readUtf16RD, readUtf16R, RD.forget_bind, RD.forget_quiet]
  refine R.bind_pure_eta _ _ _ fun _ => R.bind_pure_eta _ _ _ fun b => ?_
  cases utf16Dec (units16 b) <;> rfl

theorem Data.parseRD_forget (t len : Nat) : RD.forget (Data.parseRD t len) = Data.parseR t len := by
  unfold Data.parseRD Data.parseR
  split <;> first
    | simp only [RD.forget_bind, RD.forget_quiet, RD.forget_pure, readUtf8RD_forget, readUtf16RD_forget, RD.forget_fail]
    | skip

/-! ### Reading -/

theorem parseFtypRD_forget : RD.forget parseFtypRD = parseFtypR := by
  simp only [parseFtypRD, parseFtypR, RD.forget_bind, RD.forget_quiet, RD.forget_ite, RD.forget_fail, parseHeadRD_forget,
    readUtf8RD_forget]

theorem parseMvhdRD_forget (size : Size) : RD.forget (parseMvhdRD size) = parseMvhdR size := by
  simp only [parseMvhdRD, parseMvhdR, RD.forget_bind, RD.forget_quiet, RD.forget_ite, RD.forget_fail, parseFullHeadRD_forget]

theorem parseEsdsRD_forget (info : Mp4a) (size : Size) : RD.forget (parseEsdsRD info size) = parseEsdsR info size := by
  simp only [parseEsdsRD, parseEsdsR, RD.forget_bind, RD.forget_quiet, RD.forget_ite, RD.forget_fail, parseFullHeadRD_forget]

theorem parseMp4aRD_forget (size : Size) : RD.forget (parseMp4aRD size) = parseMp4aR size := by
  simp only [parseMp4aRD, parseMp4aR, RD.forget_bind, RD.forget_quiet, RD.forget_ite, RD.forget_fail, parseHeadRD_forget,
    RD.forget_pure, parseEsdsRD_forget]

theorem parseStsdRD_forget (size : Size) : RD.forget (parseStsdRD size) = parseStsdR size := by
  simp only [parseStsdRD, parseStsdR, RD.forget_bind, RD.forget_quiet, RD.forget_ite, RD.forget_fail, parseFullHeadRD_forget,
    loopRD_forget, RD.forget_within, parseMp4aRD_forget, RD.forget_pure]

theorem parseStblRD_forget (size : Size) : RD.forget (parseStblRD size) = parseStblR size := by
  simp only [parseStblRD, parseStblR, RD.forget_bind, RD.forget_quiet, RD.forget_ite, loopRD_forget, RD.forget_within,
    parseStsdRD_forget, RD.forget_pure]

theorem parseMinfRD_forget (size : Size) : RD.forget (parseMinfRD size) = parseMinfR size := by
  simp only [parseMinfRD, parseMinfR, RD.forget_bind, RD.forget_quiet, RD.forget_ite, loopRD_forget, RD.forget_within,
    parseStblRD_forget, RD.forget_pure]

theorem parseMdiaRD_forget (size : Size) : RD.forget (parseMdiaRD size) = parseMdiaR size := by
  simp only [parseMdiaRD, parseMdiaR, RD.forget_bind, RD.forget_quiet, RD.forget_ite, loopRD_forget, RD.forget_within,
    parseMinfRD_forget, RD.forget_pure]

theorem parseTrakRD_forget (size : Size) : RD.forget (parseTrakRD size) = parseTrakR size := by
  simp only [parseTrakRD, parseTrakR, RD.forget_bind, RD.forget_quiet, RD.forget_ite, loopRD_forget, RD.forget_within,
    parseMdiaRD_forget, RD.forget_pure]

theorem itemHandleRD_forget (s : ItemSt) (h : Head) : RD.forget (itemHandleRD s h) = itemHandleR s h := by
  simp only [itemHandleRD, itemHandleR, RD.forget_bind, RD.forget_quiet, RD.forget_ite, RD.forget_fail, parseFullHeadRD_forget,
    RD.forget_pure, Data.parseRD_forget, readUtf8RD_forget]

theorem parseItemRD_forget (f : Fourcc) (len : Nat) : RD.forget (parseItemRD f len) = parseItemR f len := by
  simp only [parseItemRD, parseItemR, RD.forget_bind, RD.forget_ite, RD.forget_fail, RD.forget_pure, loopRD_forget,
    itemHandleRD_forget]

theorem parseIlstRD_forget (size : Size) : RD.forget (parseIlstRD size) = parseIlstR size := by
  simp only [parseIlstRD, parseIlstR, RD.forget_bind, RD.forget_quiet, RD.forget_ite, loopRD_forget, parseItemRD_forget,
    RD.forget_pure]

theorem parseMetaRD_forget (size : Size) : RD.forget (parseMetaRD size) = parseMetaR size := by
  simp only [parseMetaRD, parseMetaR, RD.forget_bind, RD.forget_quiet, RD.forget_ite, RD.forget_fail, parseFullHeadRD_forget,
    loopRD_forget, RD.forget_within, parseIlstRD_forget, RD.forget_pure]

theorem parseUdtaRD_forget (size : Size) : RD.forget (parseUdtaRD size) = parseUdtaR size := by
  simp only [parseUdtaRD, parseUdtaR, RD.forget_bind, RD.forget_quiet, RD.forget_ite, loopRD_forget, RD.forget_within,
    parseMetaRD_forget, RD.forget_pure]

theorem moovHandleRD_forget (s : Moov) (h : Head) : RD.forget (moovHandleRD s h) = moovHandleR s h := by
  simp only [moovHandleRD, moovHandleR, RD.forget_bind, RD.forget_quiet, RD.forget_ite, RD.forget_within, parseMvhdRD_forget,
    parseTrakRD_forget, parseUdtaRD_forget, RD.forget_pure]

theorem parseMoovRD_forget (size : Size) : RD.forget (parseMoovRD size) = parseMoovR size := by
  simp only [parseMoovRD, parseMoovR, loopRD_forget, moovHandleRD_forget]

theorem topWalkRD_forget (len : Nat) : ∀ f parsed, RD.forget (topWalkRD len f parsed) = topWalkR len f parsed
  | 0, parsed => by rw [topWalkRD, topWalkR, RD.forget_quiet]
  | f+1, parsed => by
    simp only [topWalkRD, topWalkR, RD.forget_bind, RD.forget_quiet, RD.forget_ite, RD.forget_fail, parseHeadRD_forget,
      RD.forget_within, parseMoovRD_forget, topWalkRD_forget len f]

theorem readTagRD_forget : RD.forget readTagRD = readTagR := by
  simp only [readTagRD, readTagR, RD.forget_bind, RD.forget_quiet, parseFtypRD_forget, topWalkRD_forget, RD.forget_pure]

/-! ### Searching -/

theorem findStblRD_forget (size : Size) : RD.forget (findStblRD size) = findStblR size := by
  simp only [findStblRD, findStblR, RD.forget_bind, RD.forget_quiet, RD.forget_ite, loopRD_forget, RD.forget_within, RD.forget_pure]

theorem findMinfRD_forget (size : Size) : RD.forget (findMinfRD size) = findMinfR size := by
  simp only [findMinfRD, findMinfR, RD.forget_bind, RD.forget_quiet, RD.forget_ite, loopRD_forget, RD.forget_within, RD.forget_pure,
    findStblRD_forget]

theorem findMdiaRD_forget (size : Size) : RD.forget (findMdiaRD size) = findMdiaR size := by
  simp only [findMdiaRD, findMdiaR, RD.forget_bind, RD.forget_quiet, RD.forget_ite, loopRD_forget, RD.forget_within, RD.forget_pure,
    findMinfRD_forget]

theorem findTrakRD_forget (size : Size) : RD.forget (findTrakRD size) = findTrakR size := by
  simp only [findTrakRD, findTrakR, RD.forget_bind, RD.forget_quiet, RD.forget_ite, loopRD_forget, RD.forget_within, RD.forget_pure,
    findMdiaRD_forget]

theorem findMetaRD_forget (size : Size) : RD.forget (findMetaRD size) = findMetaR size := by
  simp only [findMetaRD, findMetaR, RD.forget_bind, RD.forget_quiet, RD.forget_ite, RD.forget_fail, parseFullHeadRD_forget,
    loopRD_forget, RD.forget_within, RD.forget_pure]

theorem findUdtaRD_forget (size : Size) : RD.forget (findUdtaRD size) = findUdtaR size := by
  simp only [findUdtaRD, findUdtaR, RD.forget_bind, RD.forget_quiet, RD.forget_ite, loopRD_forget, RD.forget_within, RD.forget_pure,
    findMetaRD_forget]

theorem findMoovRD_forget (size : Size) : RD.forget (findMoovRD size) = findMoovR size := by
  simp only [findMoovRD, findMoovR, RD.forget_bind, RD.forget_quiet, RD.forget_ite, loopRD_forget, RD.forget_within, RD.forget_pure,
    findTrakRD_forget, findUdtaRD_forget]

theorem findTopRD_forget : RD.forget findTopRD = findTopR := by
  simp only [findTopRD, findTopR, RD.forget_bind, RD.forget_quiet, RD.forget_ite, loopRD_forget, RD.forget_within, RD.forget_pure,
    findMoovRD_forget, parseFtypRD_forget]
  refine R.bind_pure_eta _ _ _ fun _ => R.bind_pure_eta _ _ _ fun _ => R.bind_pure_eta _ _ _ fun s => ?_
  cases s.moov <;> rfl

theorem preparePhaseRD_forget (atoms : List AtomData) : RD.forget (preparePhaseRD atoms) = preparePhaseR atoms := by
  simp only [preparePhaseRD, preparePhaseR, RD.forget_bind, RD.forget_quiet, findTopRD_forget]

end Mp4
