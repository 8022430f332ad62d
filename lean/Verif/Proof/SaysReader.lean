import Verif.Proof.DescribeReader
import Verif.Proof.SaysWrite
/-
Reading with descriptions from an arbitrary reader: as from a stream, unless a call fails; then the description is that of the place.
-/
namespace Mp4
open Spec

/-- The outcome of reading from the stream, with its description. -/
def AgreeD {α} (x : DOut α × RSt) : DOut (α × Nat) → Prop
  | .ok (a, q) => x.1 = .ok a ∧ x.2.pos = q
  | .err k d => x.1 = .err k d
  | .panic => x.1 = .panic
  | .fuel => x.1 = .fuel

/-- A result that agrees with the outcome on the stream, unless an error is reported, whose description is one of `S` (or the
iterations do not suffice). -/
def RDRes (c : Sched) (e : Env) (F : Bytes) (S : Str → Prop) {α} (x : DOut α × RSt) (o : DOut (α × Nat)) : Prop :=
  (x.2.hit = false ∧ AgreeD x o) ∨ (x.2.hit = true ∧ ∃ d, x.1 = .err .io d ∧ S d) ∨
    (x.2.hit = false ∧ x.1 = .fuel ∧ ¬ Spec.Enough c e F)

/-- `r` does what `m` does, unless an error is reported (or the iterations do not suffice). -/
structure RDSim (c : Sched) (e : Env) (F : Bytes) (S : Str → Prop) {α} (r : RD α) (m : D α) : Prop where
  run : ∀ s, s.hit = false → RDRes c e F S (r c e F s) (m e F s.pos)

namespace RDSim
variable {c : Sched} {e : Env} {F : Bytes} {S : Str → Prop}

theorem pure {α} (a : α) : RDSim c e F S (Pure.pure a : RD α) (Pure.pure a) := ⟨fun _ hs => .inl ⟨hs, rfl, rfl⟩⟩

theorem fail {α} (k : ErrKind) (d : Str) : RDSim c e F S (failRD k d : RD α) (failD k d) := ⟨fun _ hs => .inl ⟨hs, rfl⟩⟩

theorem bindQ {α β} {r : RD α} {p : D α} {g : α → RD β} {f : α → D β} {Q : α → Prop} (h : RDSim c e F S r p) (hg : Gives F Q p)
    (hf : ∀ a, Q a → RDSim c e F S (g a) (f a)) : RDSim c e F S (r >>= g) (p >>= f) := by
  refine ⟨fun s hs => ?_⟩
  have h := h.run s hs
  show RDRes c e F S (RD.bind r g c e F s) (D.bind p f e F s.pos)
  unfold RD.bind D.bind
  rcases hx : r c e F s with ⟨o, s'⟩
  rw [hx] at h
  rcases h with ⟨h1, h2⟩ | ⟨h1, d, h2, h3⟩ | ⟨h1, h2, h3⟩
  · rcases hp : p e F s.pos with ⟨a, q⟩ | k | _ | _
    · rw [hp] at h2
      obtain ⟨h2, h3⟩ := h2
      dsimp only at h2 h3
      subst h2 h3
      exact (hf a (hg _ _ _ _ hp)).run s' h1
    all_goals
      rw [hp] at h2
      change o = _ at h2
      subst h2
      exact .inl ⟨h1, rfl⟩
  · change o = _ at h2
    subst h2
    exact .inr (.inl ⟨h1, d, rfl, h3⟩)
  · change o = _ at h2
    subst h2
    exact .inr (.inr ⟨h1, rfl, h3⟩)

theorem bind {α β} {r : RD α} {p : D α} {g : α → RD β} {f : α → D β} (h : RDSim c e F S r p)
    (hf : ∀ a, RDSim c e F S (g a) (f a)) : RDSim c e F S (r >>= g) (p >>= f) :=
  .bindQ h (Q := fun _ => True) (fun _ _ _ _ _ => trivial) fun a _ => hf a

theorem ite {α} (q : Prop) [Decidable q] {r r' : RD α} {p p' : D α} (h : q → RDSim c e F S r p) (h' : ¬q → RDSim c e F S r' p') :
    RDSim c e F S (if q then r else r') (if q then p else p') := by
  split
  · exact h ‹_›
  · exact h' ‹_›

theorem say {α} {d : Str} {r : R α} {p : P α} (h : RSim c e F r p) (hd : S d) : RDSim c e F S (sayR d r) (say d p) := by
  refine ⟨fun s hs => ?_⟩
  obtain ⟨-, h⟩ := h.run s hs
  unfold sayR Mp4.say
  rcases h with ⟨h1, h2⟩ | ⟨h1, h2⟩ | ⟨h1, h2, h3⟩
  · refine .inl ⟨h1, ?_⟩
    cases hp : p e F s.pos with
    | ok x => rw [hp] at h2; exact ⟨congrArg (Out.say d) h2.1, h2.2⟩
    | err k => rw [hp] at h2; exact congrArg (Out.say d) h2
    | panic => rw [hp] at h2; exact congrArg (Out.say d) h2
    | fuel => rw [hp] at h2; exact congrArg (Out.say d) h2
  · exact .inr (.inl ⟨h1, d, congrArg (Out.say d) h2, hd⟩)
  · exact .inr (.inr ⟨h1, congrArg (Out.say d) h2, h3⟩)

theorem quiet {α} {r : R α} {p : P α} (h : RSim c e F r p) (hd : S []) : RDSim c e F S (quietR r) (quiet p) := .say h hd

theorem within {α} {S' : Str → Prop} {f : Fourcc} {r : RD α} {p : D α} (h : RDSim c e F S' r p)
    (hs : ∀ d, S' d → S (parsingText f ++ d)) : RDSim c e F S (withinR f r) (within f p) := by
  refine ⟨fun s h0 => ?_⟩
  have h := h.run s h0
  unfold withinR Mp4.within
  rcases h with ⟨h1, h2⟩ | ⟨h1, d, h2, h3⟩ | ⟨h1, h2, h3⟩
  · refine .inl ⟨h1, ?_⟩
    cases hp : p e F s.pos with
    | ok x => rw [hp] at h2; exact ⟨congrArg (DOut.front (parsingText f)) h2.1, h2.2⟩
    | err k d => rw [hp] at h2; exact congrArg (DOut.front (parsingText f)) h2
    | panic => rw [hp] at h2; exact congrArg (DOut.front (parsingText f)) h2
    | fuel => rw [hp] at h2; exact congrArg (DOut.front (parsingText f)) h2
  · exact .inr (.inl ⟨h1, _, congrArg (DOut.front (parsingText f)) h2, hs d h3⟩)
  · exact .inr (.inr ⟨h1, congrArg (DOut.front (parsingText f)) h2, h3⟩)

/-! ### Places -/

variable {R : List Fourcc → ErrKind → Str → Prop} {pre : List Fourcc}

theorem sub {α} {f : Fourcc} {r : RD α} {m : D α} (h : RDSim c e F (Sub R F (pre ++ [f]) .io) r m) (hn : Named F f) :
    RDSim c e F (Sub R F pre .io) (withinR f r) (Mp4.within f m) := by
  refine .within h fun d hs => ?_
  obtain ⟨path, text, h1, h2, h3, h4⟩ := hs
  refine ⟨f :: path, text, ?_, ?_, ?_, h4⟩
  · rw [List.append_assoc] at h1
    exact h1
  · rw [h2]
    exact (parsing_cons f path text).symm
  · intro g hg
    rcases List.mem_cons.mp hg with rfl | hg
    · exact hn
    · exact h3 g hg

theorem one {σ α} {f : Fourcc} {r : RD α} {m : D α} {upd : α → σ} (hn : Named F f)
    (h : RDSim c e F (Sub R F (pre ++ [f]) .io) r m) :
    RDSim c e F (Sub R F pre .io) (do let a ← withinR f r; Pure.pure (upd a)) (do let a ← Mp4.within f m; Pure.pure (upd a)) :=
  .bind (.sub h hn) fun _ => .pure _

theorem parseHead (h : HeadSays F (Sub R F pre)) : RDSim c e F (Sub R F pre .io) parseHeadRD parseHeadD :=
  .bind (.say .readU32 h.length) fun _ => .bind (.say (.readExact _) h.ident) fun _ => .ite _
    (fun _ => .bind (.say .readU64 h.extLength) fun _ => .pure _) fun _ => .ite _ (fun _ => .fail _ _) fun _ => .pure _

theorem parseFullHead (h : FullSays (Sub R F pre)) : RDSim c e F (Sub R F pre .io) parseFullHeadRD parseFullHeadD :=
  .bind (.say .readU8 h.version) fun _ => .bind (.say (.readExact _) h.flags) fun _ => .pure _

theorem walk {σ} {limit : E Nat} {g : σ → Head → RD σ} {f : σ → Head → D σ} (hio : Sub R F pre .io [])
    (hs : HeadSays F (Sub R F pre)) (hh : ∀ s h, Named F h.fourcc → RDSim c e F (Sub R F pre .io) (g s h) (f s h)) : ∀ n s q,
    RDSim c e F (Sub R F pre .io) (walkRD limit g n s q) (walkD limit f n s q)
  | 0, _, _ => .quiet .outOfFuel hio
  | n+1, s, q => .bind (.quiet (.E _) hio) fun _ => .ite _
      (fun _ => .bindQ (.parseHead hs) .parseHead fun h hn => .bind (hh s h hn) fun _ => .bind (.quiet (.E _) hio) fun _ =>
        walk hio hs hh n _ _)
      fun _ => .pure _

theorem children {σ} {limit : E Nat} {g : σ → Head → RD σ} {f : σ → Head → D σ} {s : σ} {q : Nat} (hio : R pre .io [])
    (hp : ∀ k t, HeadFault k t → R pre k t) (hh : ∀ s h, Named F h.fourcc → RDSim c e F (Sub R F pre .io) (g s h) (f s h)) :
    RDSim c e F (Sub R F pre .io) (loopRD limit g s q) (loopD limit f s q) :=
  .bind (.quiet .getFuel (.here hio trivial)) fun _ => .walk (.here hio trivial) (.of hp) hh _ _ _

theorem skip {α} {h : Head} {a : α} (hio : R pre .io []) :
    RDSim c e F (Sub R F pre .io) (do quietR (skipContentR h); Pure.pure a) (do Mp4.quiet (skipContent h); Pure.pure a) :=
  .bind (.quiet (.skipContent _) (.here hio trivial)) fun _ => .pure _

theorem readUtf8 {n : Nat} (hio : S []) : RDSim c e F S (readUtf8RD n) (readUtf8D n) := by
  refine .bind (.quiet (.readU8Vec _) hio) fun b => ?_
  cases utf8Dec b with
  | some _ => exact .pure _
  | none => exact .fail _ _

theorem readUtf16 {n : Nat} (hio : S []) : RDSim c e F S (readUtf16RD n) (readUtf16D n) := by
  refine .bind (.quiet (.alloc _) hio) fun _ => .bind (.quiet (.readExact _) hio) fun b => ?_
  cases utf16Dec (units16 b) with
  | some _ => exact .pure _
  | none => exact .fail _ _

theorem dataParse {t n : Nat} (hio : S []) : RDSim c e F S (Data.parseRD t n) (Data.parseD t n) := by
  have vec : ∀ f : Bytes → Data, RDSim c e F S (do let v ← quietR (readU8VecR n); Pure.pure (f v))
      (do let v ← Mp4.quiet (readU8Vec n); Pure.pure (f v)) := fun _ => .bind (.quiet (.readU8Vec _) hio) fun _ => .pure _
  by_cases h0 : t = 0
  · subst h0; exact vec _
  by_cases h1 : t = 1
  · subst h1; exact .bind (.readUtf8 hio) fun _ => .pure _
  by_cases h2 : t = 2
  · subst h2; exact .bind (.readUtf16 hio) fun _ => .pure _
  by_cases h13 : t = 13
  · subst h13; exact vec _
  by_cases h14 : t = 14
  · subst h14; exact vec _
  by_cases h21 : t = 21
  · subst h21; exact vec _
  by_cases h27 : t = 27
  · subst h27; exact vec _
  have e1 : Data.parseRD t n = failRD (.unknownDataType t) "Unknown datatype code".toList := by
    unfold Data.parseRD; split <;> first | contradiction | rfl
  have e2 : Data.parseD t n = failD (.unknownDataType t) "Unknown datatype code".toList := by
    unfold Data.parseD; split <;> first | contradiction | rfl
  rw [e1, e2]
  exact .fail _ _

end RDSim

/-! ### Reading -/

section
variable {c : Sched} {e : Env} {F : Bytes} {pre : List Fourcc}

theorem rd_mvhd (size : Size) : RDSim c e F (Sub ReadFault F mvhdPath .io) (parseMvhdRD size) (parseMvhdD size) := by
  have hio : Sub ReadFault F mvhdPath .io [] := .io (.inl rfl)
  have hf : mvhdPath ∈ readFullPaths := by decide +kernel
  refine .bind (.quiet (.findBounds _) hio) fun b => .bind (.parseFullHead (.sub hf)) fun x => ?_
  obtain ⟨v, fl⟩ := x
  refine .ite _ (fun _ => .quiet ?_ hio) fun h0 => .ite _ (fun _ => .quiet ?_ hio) fun h1 => .fail _ _
  · rsim [RSim.readU32, RSim.readU64, RSim.seekToEnd _]
  · rsim [RSim.readU32, RSim.readU64, RSim.seekToEnd _]

theorem rd_mp4a (size : Size) : RDSim c e F (Sub ReadFault F mp4aPath .io) (parseMp4aRD size) (parseMp4aD size) := by
  have hp : mp4aPath ∈ readHeadPaths := by decide +kernel
  have hf : mp4aPath ∈ readFullPaths := by decide +kernel
  have hio : Sub ReadFault F mp4aPath .io [] := .io (.inr hp)
  refine .bind (.quiet (.findBounds _) hio) fun _ => .bind (.quiet (.seekCur _) hio) fun _ =>
    .bind (.parseHead (.sub hp)) fun h => .ite _ (fun _ => .fail _ _) fun _ =>
    .bind ?_ fun _ => .bind (.quiet (.seekToEnd _) hio) fun _ => .pure _
  refine .bind (.parseFullHead (.sub hf)) fun x => ?_
  obtain ⟨v, fl⟩ := x
  refine .ite _ (fun h0 => .fail _ _) fun _ => .bind (.quiet .parseDescHead hio) fun x => ?_
  obtain ⟨tag, hl, dl⟩ := x
  exact .ite _ (fun _ => .fail _ _) fun _ =>
    .bind (.quiet (.E _) hio) fun _ => .bind (.quiet (.E _) hio) fun _ =>
    .bind (.quiet (.E _) hio) fun _ => .quiet (.parseEsDesc _ _) hio

theorem RDSim.readChildren {σ} {limit : E Nat} {g : σ → Head → RD σ} {f : σ → Head → D σ} {s : σ} {q : Nat} (hp : pre ∈ readHeadPaths)
    (hh : ∀ s h, Named F h.fourcc → RDSim c e F (Sub ReadFault F pre .io) (g s h) (f s h)) :
    RDSim c e F (Sub ReadFault F pre .io) (loopRD limit g s q) (loopD limit f s q) :=
  .children (.io (.inr hp)) (fun _ _ => .head hp) hh

theorem RDSim.readSkip {α} {h : Head} {a : α} (hp : pre ∈ readHeadPaths) :
    RDSim c e F (Sub ReadFault F pre .io) (do quietR (skipContentR h); Pure.pure a) (do Mp4.quiet (skipContent h); Pure.pure a) :=
  .skip (.io (.inr hp))

theorem rd_stsd (size : Size) : RDSim c e F (Sub ReadFault F stsdPath .io) (parseStsdRD size) (parseStsdD size) := by
  have hp : stsdPath ∈ readHeadPaths := by decide +kernel
  have hf : stsdPath ∈ readFullPaths := by decide +kernel
  have hio : Sub ReadFault F stsdPath .io [] := .io (.inr hp)
  refine .bind (.parseFullHead (.sub hf)) fun x => ?_
  obtain ⟨v, fl⟩ := x
  exact .ite _ (fun h0 => .fail _ _) fun _ => .bind (.quiet (.seekCur _) hio) fun _ =>
    .readChildren hp fun s h hn => .ite _ (fun hf => .one (hf ▸ hn) (rd_mp4a _)) fun _ => .readSkip hp

theorem rd_stbl (size : Size) : RDSim c e F (Sub ReadFault F stblPath .io) (parseStblRD size) (parseStblD size) := by
  have hp : stblPath ∈ readHeadPaths := by decide +kernel
  exact .readChildren hp fun s h hn => .ite _ (fun hf => .one (hf ▸ hn) (rd_stsd _)) fun _ => .readSkip hp

theorem rd_minf (size : Size) : RDSim c e F (Sub ReadFault F minfPath .io) (parseMinfRD size) (parseMinfD size) := by
  have hp : minfPath ∈ readHeadPaths := by decide +kernel
  exact .readChildren hp fun s h hn => .ite _ (fun hf => .one (hf ▸ hn) (rd_stbl _)) fun _ => .readSkip hp

theorem rd_mdia (size : Size) : RDSim c e F (Sub ReadFault F mdiaPath .io) (parseMdiaRD size) (parseMdiaD size) := by
  have hp : mdiaPath ∈ readHeadPaths := by decide +kernel
  exact .readChildren hp fun s h hn => .ite _ (fun hf => .one (hf ▸ hn) (rd_minf _)) fun _ => .readSkip hp

theorem rd_trak (size : Size) : RDSim c e F (Sub ReadFault F trakPath .io) (parseTrakRD size) (parseTrakD size) := by
  have hp : trakPath ∈ readHeadPaths := by decide +kernel
  exact .readChildren hp fun s h hn => .ite _ (fun hf => .one (hf ▸ hn) (rd_mdia _)) fun _ => .readSkip hp

theorem rd_itemHandle (s : ItemSt) (h : Head) : RDSim c e F (Sub ReadFault F ilstPath .io) (itemHandleRD s h) (itemHandleD s h) := by
  have hp : ilstPath ∈ readHeadPaths := by decide +kernel
  have hf : ilstPath ∈ readFullPaths := by decide +kernel
  have hio : Sub ReadFault F ilstPath .io [] := .io (.inr hp)
  refine .ite _ (fun _ => ?_) fun _ => .ite _ (fun _ => ?_) fun _ => .ite _ (fun _ => ?_) fun _ => .readSkip hp
  · refine .bind (.parseFullHead (.sub hf)) fun x => ?_
    obtain ⟨v, fl⟩ := x
    exact .ite _ (fun h0 => .fail _ _) fun h0 => .bind (.quiet (.seekCur _) hio) fun _ =>
      .bind (.quiet (.E _) hio) fun _ => .bind (.quiet (.E _) hio) fun _ => .bind (.dataParse hio) fun _ => .pure _
  · refine .bind (.parseFullHead (.sub hf)) fun x => ?_
    obtain ⟨v, fl⟩ := x
    exact .ite _ (fun h0 => .fail _ _) fun h0 => .bind (.quiet (.E _) hio) fun _ => .bind (.quiet (.E _) hio) fun _ =>
      .bind (.readUtf8 hio) fun _ => .pure _
  · refine .bind (.parseFullHead (.sub hf)) fun x => ?_
    obtain ⟨v, fl⟩ := x
    exact .ite _ (fun h0 => .fail _ _) fun h0 => .bind (.quiet (.E _) hio) fun _ => .bind (.quiet (.E _) hio) fun _ =>
      .bind (.readUtf8 hio) fun _ => .pure _

theorem rd_item (parent : Fourcc) (len : Nat) :
    RDSim c e F (Sub ReadFault F ilstPath .io) (parseItemRD parent len) (parseItemD parent len) := by
  have hp : ilstPath ∈ readHeadPaths := by decide +kernel
  exact .bind (.readChildren hp fun s h _ => rd_itemHandle s h) fun s => .ite _ (fun _ => .fail _ _) fun _ => .pure _

theorem rd_ilst (size : Size) : RDSim c e F (Sub ReadFault F ilstPath .io) (parseIlstRD size) (parseIlstD size) := by
  have hp : ilstPath ∈ readHeadPaths := by decide +kernel
  exact .readChildren hp fun s h hn => .ite _ (fun _ => .readSkip hp) fun hf =>
    .bind (.quiet (.E _) (.io (.inr hp))) fun _ => .bind (rd_item _ _) fun _ => .pure _

theorem rd_meta (size : Size) : RDSim c e F (Sub ReadFault F metaPath .io) (parseMetaRD size) (parseMetaD size) := by
  have hp : metaPath ∈ readHeadPaths := by decide +kernel
  have hf : metaPath ∈ readFullPaths := by decide +kernel
  refine .bind (.parseFullHead (.sub hf)) fun x => ?_
  obtain ⟨v, fl⟩ := x
  exact .ite _ (fun h0 => .fail _ _) fun _ =>
    .readChildren hp fun s h hn => .ite _ (fun hf => .one (hf ▸ hn) (rd_ilst _)) fun _ => .readSkip hp

theorem rd_udta (size : Size) : RDSim c e F (Sub ReadFault F udtaPath .io) (parseUdtaRD size) (parseUdtaD size) := by
  have hp : udtaPath ∈ readHeadPaths := by decide +kernel
  exact .readChildren hp fun s h hn => .ite _ (fun hf => .one (hf ▸ hn) (rd_meta _)) fun _ => .readSkip hp

theorem rd_moov (size : Size) : RDSim c e F (Sub ReadFault F moovPath .io) (parseMoovRD size) (parseMoovD size) := by
  have hp : moovPath ∈ readHeadPaths := by decide +kernel
  exact .readChildren hp fun s h hn => .ite _ (fun hf => .one (hf ▸ hn) (rd_mvhd _)) fun _ =>
    .ite _ (fun hf => .one (hf ▸ hn) (rd_trak _)) fun _ =>
    .ite _ (fun hf => .one (hf ▸ hn) (rd_udta _)) fun _ => .readSkip hp

theorem rd_ftyp {R : List Fourcc → ErrKind → Str → Prop} (hio : R [] .io []) (hp : ∀ k t, HeadFault k t → R [] k t) :
    RDSim c e F (Sub R F [] .io) parseFtypRD parseFtypD := by
  have hio : Sub R F [] .io [] := .here hio trivial
  exact .bind (.parseHead (.of hp)) fun h => .ite _ (fun _ => .fail _ _) fun _ =>
    .bind (.quiet (.E _) hio) fun _ => .readUtf8 hio

theorem rd_topWalk (len : Nat) : ∀ f parsed, RDSim c e F (Sub ReadFault F [] .io) (topWalkRD len f parsed) (topWalkD len f parsed)
  | 0, _ => .quiet .outOfFuel (.io (.inr (by decide +kernel)))
  | f+1, parsed => by
    have hp : [] ∈ readHeadPaths := by decide +kernel
    have hio : Sub ReadFault F [] .io [] := .io (.inr hp)
    exact .ite _ (fun _ => .fail _ _) fun _ => .bindQ (.parseHead (.sub hp)) .parseHead fun h hn => .ite _
      (fun hf => .sub (rd_moov _) (hf ▸ hn)) fun _ => .bind (.quiet (.skipContent _) hio) fun _ =>
      .bind (.quiet (.E _) hio) fun _ => rd_topWalk len f _

theorem rd_readTag : RDSim c e F (Sub ReadFault F [] .io) readTagRD readTagD := by
  have hp : [] ∈ readHeadPaths := by decide +kernel
  have hio : Sub ReadFault F [] .io [] := .io (.inr hp)
  exact .bind (rd_ftyp (.io (.inr hp)) fun _ _ => .head hp) fun _ => .bind (.quiet .remainingStreamLen hio) fun _ =>
    .bind (.quiet .getFuel hio) fun _ => .bind (rd_topWalk _ _ _) fun _ => .pure _

/-! ### Searching -/

theorem RDSim.findChildren {σ} {limit : E Nat} {g : σ → Head → RD σ} {f : σ → Head → D σ} {s : σ} {q : Nat} (hp : pre ∈ findHeadPaths)
    (hh : ∀ s h, Named F h.fourcc → RDSim c e F (Sub FindFault F pre .io) (g s h) (f s h)) :
    RDSim c e F (Sub FindFault F pre .io) (loopRD limit g s q) (loopD limit f s q) :=
  .children (.io (.inl hp)) (fun _ _ => .head hp) hh

theorem RDSim.findSkip {α} {h : Head} {a : α} (hp : pre ∈ findHeadPaths) :
    RDSim c e F (Sub FindFault F pre .io) (do quietR (skipContentR h); Pure.pure a) (do Mp4.quiet (skipContent h); Pure.pure a) :=
  .skip (.io (.inl hp))

theorem RDSim.leaf {σ} {size : Size} {f : Fourcc} {upd : AtomBounds → σ} (hn : Named F f) (hp : pre ++ [f] ∈ findLeafPaths) :
    RDSim c e F (Sub FindFault F pre .io) (do let a ← withinR f (quietR (findLeafR size)); Pure.pure (upd a))
      (do let a ← Mp4.within f (Mp4.quiet (Mp4.findLeaf size)); Pure.pure (upd a)) :=
  .one hn (.quiet (.findLeaf _) (.here (.io (.inr hp)) trivial))

theorem RDSim.boundsThen {β} {size : Size} {g : AtomBounds → RD β} {f : AtomBounds → D β} (hp : pre ∈ findHeadPaths)
    (h : ∀ b, RDSim c e F (Sub FindFault F pre .io) (g b) (f b)) :
    RDSim c e F (Sub FindFault F pre .io) (quietR (findBoundsR size) >>= g) (Mp4.quiet (Mp4.findBounds size) >>= f) :=
  .bind (.quiet (.findBounds _) (.here (.io (.inl hp)) trivial)) h

theorem rd_findStbl (size : Size) : RDSim c e F (Sub FindFault F stblPath .io) (findStblRD size) (findStblD size) := by
  have hp : stblPath ∈ findHeadPaths := by decide +kernel
  exact .boundsThen hp fun _ => .findChildren hp fun s h hn =>
    .ite _ (fun hf => .leaf (hf ▸ hn) (by decide +kernel)) fun _ =>
    .ite _ (fun hf => .leaf (hf ▸ hn) (by decide +kernel)) fun _ => .findSkip hp

theorem rd_findMinf (size : Size) : RDSim c e F (Sub FindFault F minfPath .io) (findMinfRD size) (findMinfD size) := by
  have hp : minfPath ∈ findHeadPaths := by decide +kernel
  exact .boundsThen hp fun _ => .findChildren hp fun s h hn =>
    .ite _ (fun hf => .one (hf ▸ hn) (rd_findStbl _)) fun _ => .findSkip hp

theorem rd_findMdia (size : Size) : RDSim c e F (Sub FindFault F mdiaPath .io) (findMdiaRD size) (findMdiaD size) := by
  have hp : mdiaPath ∈ findHeadPaths := by decide +kernel
  exact .boundsThen hp fun _ => .findChildren hp fun s h hn =>
    .ite _ (fun hf => .one (hf ▸ hn) (rd_findMinf _)) fun _ => .findSkip hp

theorem rd_findTrak (size : Size) : RDSim c e F (Sub FindFault F trakPath .io) (findTrakRD size) (findTrakD size) := by
  have hp : trakPath ∈ findHeadPaths := by decide +kernel
  exact .boundsThen hp fun _ => .findChildren hp fun s h hn =>
    .ite _ (fun hf => .one (hf ▸ hn) (rd_findMdia _)) fun _ => .findSkip hp

theorem rd_findMeta (size : Size) : RDSim c e F (Sub FindFault F metaPath .io) (findMetaRD size) (findMetaD size) := by
  have hp : metaPath ∈ findHeadPaths := by decide +kernel
  refine .boundsThen hp fun _ => .bind (.parseFullHead (.of fun _ _ => .full)) fun x => ?_
  obtain ⟨v, fl⟩ := x
  exact .ite _ (fun h0 => .fail _ _) fun _ =>
    .findChildren hp fun s h hn =>
    .ite _ (fun hf => .leaf (hf ▸ hn) (by decide +kernel)) fun _ =>
    .ite _ (fun hf => .leaf (hf ▸ hn) (by decide +kernel)) fun _ => .findSkip hp

theorem rd_findUdta (size : Size) : RDSim c e F (Sub FindFault F udtaPath .io) (findUdtaRD size) (findUdtaD size) := by
  have hp : udtaPath ∈ findHeadPaths := by decide +kernel
  exact .boundsThen hp fun _ => .findChildren hp fun s h hn =>
    .ite _ (fun hf => .one (hf ▸ hn) (rd_findMeta _)) fun _ => .findSkip hp

theorem rd_findMoov (size : Size) : RDSim c e F (Sub FindFault F moovPath .io) (findMoovRD size) (findMoovD size) := by
  have hp : moovPath ∈ findHeadPaths := by decide +kernel
  exact .boundsThen hp fun _ => .findChildren hp fun s h hn =>
    .ite _ (fun hf => .one (hf ▸ hn) (rd_findTrak _)) fun _ =>
    .ite _ (fun hf => .one (hf ▸ hn) (rd_findUdta _)) fun _ => .findSkip hp

theorem rd_findTop : RDSim c e F (Sub FindFault F [] .io) findTopRD findTopD := by
  have hp : [] ∈ findHeadPaths := by decide +kernel
  have hio : Sub FindFault F [] .io [] := .here (.io (.inl hp)) trivial
  refine .bind (rd_ftyp (.io (.inl hp)) fun _ _ => .head hp) fun _ =>
    .bind (.quiet .remainingStreamLen hio) fun _ => .bind (.findChildren hp fun s h hn =>
      .ite _ (fun hf => .one (hf ▸ hn) (rd_findMoov _)) fun _ =>
      .ite _ (fun hf => .leaf (hf ▸ hn) (by decide +kernel)) fun _ => .findSkip hp) fun s => ?_
  dsimp only
  cases s.moov with
  | some _ => exact .pure _
  | none => exact .fail _ _

theorem rd_prepare (atoms : List AtomData) :
    RDSim c e F (Sub FindFault F [] .io) (preparePhaseRD atoms) (preparePhaseD atoms) := by
  have hio : Sub FindFault F [] .io [] := .here (.io (.inl (by decide +kernel))) trivial
  refine .bind rd_findTop fun x => ?_
  obtain ⟨m, b⟩ := x
  refine .quiet ?_ hio
  rsim []

end

end Mp4
