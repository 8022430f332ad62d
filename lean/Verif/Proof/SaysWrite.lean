import Verif.Proof.Says
import Verif.Proof.Monad
/-
Which errors, with which descriptions, writing to a file can return.
-/
namespace Mp4
open Spec

variable {F : Bytes}

/-! ### Searching -/

theorem Gives.pure {α} {Q : α → Prop} {a : α} (h : Q a) : Gives F Q (pure a : D α) := fun _ _ _ _ h' => by cases h'; exact h

theorem Gives.bind {α β} {m : D α} {f : α → D β} {Q : α → Prop} {Q' : β → Prop} (h1 : Gives F Q m)
    (h2 : ∀ a, Q a → Gives F Q' (f a)) : Gives F Q' (m >>= f) := by
  intro e p a q h
  rw [D.bind_apply] at h
  cases hm : m e F p with
  | ok x => rw [hm] at h; exact h2 _ (h1 _ _ _ _ hm) _ _ _ _ h
  | err k' d' => rw [hm] at h; cases h
  | panic => rw [hm] at h; cases h
  | fuel => rw [hm] at h; cases h

theorem Gives.any {α} {m : D α} : Gives F (fun _ => True) m := fun _ _ _ _ _ => trivial

theorem Gives.then {α β} {m : D α} {f : α → D β} {Q' : β → Prop} (h2 : ∀ a, Gives F Q' (f a)) : Gives F Q' (m >>= f) :=
  .bind .any fun a _ => h2 a

theorem Gives.ite {α} {Q : α → Prop} (c : Prop) [Decidable c] {a b : D α} (ha : c → Gives F Q a) (hb : ¬c → Gives F Q b) :
    Gives F Q (if c then a else b) := by
  split
  · exact ha ‹_›
  · exact hb ‹_›

theorem Gives.fail {α} {Q : α → Prop} {k : ErrKind} {d : Str} : Gives F Q (failD k d : D α) := fun _ _ _ _ h => by cases h

theorem Gives.within {α} {Q : α → Prop} {f : Fourcc} {m : D α} (h : Gives F Q m) : Gives F Q (within f m) := by
  intro e p a q h'
  unfold Mp4.within at h'
  cases hm : m e F p with
  | ok x => rw [hm] at h'; cases h'; exact h _ _ _ _ hm
  | err k' d' => rw [hm] at h'; cases h'
  | panic => rw [hm] at h'; cases h'
  | fuel => rw [hm] at h'; cases h'

theorem Gives.walk {σ} {I : σ → Prop} {limit : E Nat} {handle : σ → Head → D σ}
    (hh : ∀ s h, I s → Named F h.fourcc → Gives F I (handle s h)) : ∀ f s parsed, I s → Gives F I (walkD limit handle f s parsed)
  | 0, _, _, _ => .say (d := []) (m := outOfFuel) fun _ _ _ _ h => by cases h
  | f+1, s, parsed, hs => .then fun _ => .ite _
      (fun _ => .bind .parseHead fun h hn => .bind (hh s h hs hn) fun s' hs' => .then fun _ => Gives.walk hh f s' _ hs')
      fun _ => .pure hs

theorem Gives.loop {σ} {I : σ → Prop} {limit : E Nat} {handle : σ → Head → D σ} {s : σ} {parsed : Nat} (hs : I s)
    (hh : ∀ s h, I s → Named F h.fourcc → Gives F I (handle s h)) : Gives F I (loopD limit handle s parsed) :=
  .then fun _ => .walk hh _ _ _ hs

/-- The tables of a sample table are in the file. -/
def StblNamed (F : Bytes) (b : StblBounds) : Prop :=
  (b.stco ≠ none → Named F SAMPLE_TABLE_CHUNK_OFFSET) ∧ (b.co64 ≠ none → Named F SAMPLE_TABLE_CHUNK_OFFSET_64)

def OptNamed {α} (Q : α → Prop) (o : Option α) : Prop := ∀ a, o = some a → Q a

theorem gives_stbl (size : Size) : Gives F (StblNamed F) (findStblD size) :=
  .then fun _ => .loop ⟨fun h => absurd rfl h, fun h => absurd rfl h⟩ fun s h hs hn => .ite _
    (fun hf => .then fun _ => .pure ⟨fun _ => hf ▸ hn, hs.2⟩) fun _ => .ite _
    (fun hf => .then fun _ => .pure ⟨hs.1, fun _ => hf ▸ hn⟩) fun _ => .then fun _ => .pure hs

theorem gives_opt {α} {Q : α → Prop} {size : Size} {f : Fourcc} {m : Size → D α} (hm : ∀ s, Gives F Q (m s)) :
    Gives F (OptNamed Q) (do
      let _ ← quiet (findBounds size)
      loopD size.contentLen (fun s h =>
        if h.fourcc = f then do let a ← within f (m h.size); pure (some a)
        else do quiet (skipContent h); pure s) none 0) :=
  .then fun _ => .loop (fun _ h => by cases h) fun s h hs hn => .ite _
    (fun hf => .bind (.within (hm _)) fun a ha => .pure fun b hb => by cases hb; exact ha) fun _ => .then fun _ => .pure hs

theorem gives_minf (size : Size) : Gives F (OptNamed (StblNamed F)) (findMinfD size) := gives_opt gives_stbl

theorem gives_mdia (size : Size) : Gives F (OptNamed (OptNamed (StblNamed F))) (findMdiaD size) := gives_opt gives_minf

theorem gives_trak (size : Size) : Gives F (OptNamed (OptNamed (OptNamed (StblNamed F)))) (findTrakD size) := gives_opt gives_mdia

/-- All tables found are in the file. -/
def MoovNamed (F : Bytes) (m : MoovBounds) : Prop := ∀ t ∈ m.trak, OptNamed (OptNamed (OptNamed (StblNamed F))) t

theorem gives_moov (size : Size) : Gives F (MoovNamed F) (findMoovD size) :=
  .then fun _ => .loop (fun _ h => by cases h) fun s h hs hn => .ite _
    (fun hf => .bind (.within (gives_trak _)) fun a ha => .pure fun t ht => by
      rcases List.mem_append.mp ht with ht | ht
      · exact hs t ht
      · rw [List.mem_singleton] at ht
        subst ht
        exact ha) fun _ => .ite _
    (fun _ => .then fun _ => .pure hs) fun _ => .then fun _ => .pure hs

theorem gives_top : Gives F (fun x => MoovNamed F x.2) findTopD := by
  refine .then fun _ => .then fun len => .bind (Q := fun s : TopBounds => ∀ m, s.moov = some m → MoovNamed F m)
    (.loop (fun _ h => by cases h) fun s h hs hn => .ite _
      (fun hf => .bind (.within (gives_moov _)) fun a ha => .pure fun t ht => by cases ht; exact ha) fun _ => .ite _
      (fun _ => .then fun _ => .pure hs) fun _ => .then fun _ => .pure hs) fun s hs => ?_
  dsimp only
  split
  · exact .pure (hs _ ‹_›)
  · exact .fail

theorem stblAtoms_named {m : MoovBounds} (h : MoovNamed F m) : ∀ b ∈ stblAtoms m, StblNamed F b := by
  intro b hb
  obtain ⟨t, ht, hb⟩ := List.mem_filterMap.mp hb
  cases t with
  | none => cases hb
  | some t =>
    cases t with
    | none => cases hb
    | some t =>
      cases t with
      | none => cases hb
      | some t => cases hb; exact h _ ht _ rfl _ rfl _ rfl

/-! ### Errors of the search -/

variable {pre : List Fourcc}

theorem Says.findSkip {α} {h : Head} {a : α} (hp : pre ∈ findHeadPaths) :
    Says F (Sub FindFault F pre) (do Mp4.quiet (Mp4.skipContent h); Pure.pure a) := .skipOf (.io (.inl hp))

theorem Says.findChildren {σ} {limit : E Nat} {handle : σ → Head → D σ} {s : σ} {parsed : Nat}
    (hp : pre ∈ findHeadPaths) (hl : NoErr limit)
    (hh : ∀ s h, Named F h.fourcc → Says F (Sub FindFault F pre) (handle s h)) :
    Says F (Sub FindFault F pre) (loopD limit handle s parsed) :=
  .childrenOf (.io (.inl hp)) (fun _ _ => .head hp) hl hh

theorem Says.leaf {σ} {size : Size} {f : Fourcc} {upd : AtomBounds → σ} (hn : Named F f) (hp : pre ++ [f] ∈ findLeafPaths) :
    Says F (Sub FindFault F pre) (do let a ← Mp4.within f (Mp4.quiet (Mp4.findLeaf size)); Pure.pure (upd a)) :=
  .one hn (.quiet (.findLeaf _) (.here (.io (.inr hp)) trivial))

theorem Says.boundsThen {β} {size : Size} {f : AtomBounds → D β} (hp : pre ∈ findHeadPaths)
    (h : ∀ b, Says F (Sub FindFault F pre) (f b)) : Says F (Sub FindFault F pre) (Mp4.quiet (Mp4.findBounds size) >>= f) :=
  .bind (.quiet (.findBounds _) (.here (.io (.inl hp)) trivial)) h

theorem says_findStbl (size : Size) : Says F (Sub FindFault F stblPath) (findStblD size) := by
  have hp : stblPath ∈ findHeadPaths := by decide +kernel
  exact .boundsThen hp fun _ => .findChildren hp (.contentLen _) fun s h hn =>
    .ite _ (fun hf => .leaf (hf ▸ hn) (by decide +kernel)) fun _ =>
    .ite _ (fun hf => .leaf (hf ▸ hn) (by decide +kernel)) fun _ => .findSkip hp

theorem says_findMinf (size : Size) : Says F (Sub FindFault F minfPath) (findMinfD size) := by
  have hp : minfPath ∈ findHeadPaths := by decide +kernel
  exact .boundsThen hp fun _ => .findChildren hp (.contentLen _) fun s h hn =>
    .ite _ (fun hf => .one (hf ▸ hn) (says_findStbl _)) fun _ => .findSkip hp

theorem says_findMdia (size : Size) : Says F (Sub FindFault F mdiaPath) (findMdiaD size) := by
  have hp : mdiaPath ∈ findHeadPaths := by decide +kernel
  exact .boundsThen hp fun _ => .findChildren hp (.contentLen _) fun s h hn =>
    .ite _ (fun hf => .one (hf ▸ hn) (says_findMinf _)) fun _ => .findSkip hp

theorem says_findTrak (size : Size) : Says F (Sub FindFault F trakPath) (findTrakD size) := by
  have hp : trakPath ∈ findHeadPaths := by decide +kernel
  exact .boundsThen hp fun _ => .findChildren hp (.contentLen _) fun s h hn =>
    .ite _ (fun hf => .one (hf ▸ hn) (says_findMdia _)) fun _ => .findSkip hp

theorem says_findMeta (size : Size) : Says F (Sub FindFault F metaPath) (findMetaD size) := by
  have hp : metaPath ∈ findHeadPaths := by decide +kernel
  refine .boundsThen hp fun _ => .bindQ (.parseFullHead (.of fun _ _ => .full)) .parseFullHead fun x hx => ?_
  obtain ⟨v, fl⟩ := x
  exact .ite _ (fun h0 => .fail (.here (.metaVersion v h0) ⟨fl, hx⟩)) fun _ =>
    .findChildren hp (.contentLen _) fun s h hn =>
    .ite _ (fun hf => .leaf (hf ▸ hn) (by decide +kernel)) fun _ =>
    .ite _ (fun hf => .leaf (hf ▸ hn) (by decide +kernel)) fun _ => .findSkip hp

theorem says_findUdta (size : Size) : Says F (Sub FindFault F udtaPath) (findUdtaD size) := by
  have hp : udtaPath ∈ findHeadPaths := by decide +kernel
  exact .boundsThen hp fun _ => .findChildren hp (.contentLen _) fun s h hn =>
    .ite _ (fun hf => .one (hf ▸ hn) (says_findMeta _)) fun _ => .findSkip hp

theorem says_findMoov (size : Size) : Says F (Sub FindFault F moovPath) (findMoovD size) := by
  have hp : moovPath ∈ findHeadPaths := by decide +kernel
  exact .boundsThen hp fun _ => .findChildren hp (.contentLen _) fun s h hn =>
    .ite _ (fun hf => .one (hf ▸ hn) (says_findTrak _)) fun _ =>
    .ite _ (fun hf => .one (hf ▸ hn) (says_findUdta _)) fun _ => .findSkip hp

theorem says_findTop : Says F (Sub FindFault F []) findTopD := by
  have hp : [] ∈ findHeadPaths := by decide +kernel
  have hio : Sub FindFault F [] .io [] := .here (.io (.inl hp)) trivial
  refine .bind (.bind (.parseHead (.of fun _ _ => .head hp)) fun h => .ite _ (fun _ => .fail (.here .noTag trivial)) fun _ =>
      .bind (.quiet (.p (.contentLen _)) hio) fun _ => .readUtf8 hio (.here .utf8 trivial)) fun _ =>
    .bind (.quiet .remainingStreamLen hio) fun _ => .bind (.findChildren hp (.pure _) fun s h hn =>
      .ite _ (fun hf => .one (hf ▸ hn) (says_findMoov _)) fun _ =>
      .ite _ (fun hf => .leaf (hf ▸ hn) (by decide +kernel)) fun _ => .findSkip hp) fun s => ?_
  dsimp only
  split
  · exact .pure _
  · exact .fail (.here .noMovie fun h => absurd h (by decide +kernel))

theorem says_prepare (atoms : List AtomData) : Says F (Sub FindFault F []) (preparePhaseD atoms) := by
  have hio : Sub FindFault F [] .io [] := .here (.io (.inl (by decide +kernel))) trivial
  refine .bind says_findTop fun x => ?_
  obtain ⟨m, b⟩ := x
  exact .quiet (.bind (.p (.mkPlan _ _)) fun _ => .bind .seekEnd fun _ => .bind (.p (.subU _ _)) fun _ =>
    .bind (.p (.allocU8 _)) fun _ => .bind (.seekStart _) fun _ => .bind .readToEnd fun _ => .pure _) hio

theorem gives_prepare (atoms : List AtomData) : Gives F (fun x => MoovNamed F x.2.1) (preparePhaseD atoms) := by
  refine .bind gives_top fun x hx => ?_
  obtain ⟨m, b⟩ := x
  refine .say fun e p a q h => ?_
  obtain ⟨pl, q1, -, h⟩ := P.bind_inv h
  obtain ⟨ol, q1, -, h⟩ := P.bind_inv h
  obtain ⟨ol, q1, -, h⟩ := P.bind_inv h
  obtain ⟨ol, q1, -, h⟩ := P.bind_inv h
  obtain ⟨ol, q1, -, h⟩ := P.bind_inv h
  obtain ⟨ol, q1, -, h⟩ := P.bind_inv h
  obtain ⟨rfl, -⟩ := P.pure_inv h
  exact hx

/-! ### Serialisation -/

/-- Serialising only fails if the writer does. -/
def NoErrWr {α} (m : Wr α) : Prop := ∀ e k, (m e).2 ≠ .err k

theorem NoErrWr.pure {α} (a : α) : NoErrWr (pure a : Wr α) := fun _ _ h => by cases h

theorem NoErrWr.bind {α β} {m : Wr α} {f : α → Wr β} (h1 : NoErrWr m) (h2 : ∀ a, NoErrWr (f a)) : NoErrWr (m >>= f) := by
  intro e k h
  change (Wr.bind m f e).2 = _ at h
  unfold Wr.bind at h
  split at h
  · exact h2 _ _ _ h
  · exact h1 e _ (congrArg Prod.snd ‹_›)
  · cases h
  · cases h

theorem NoErrWr.emit (b : Bytes) : NoErrWr (emit b) := fun _ _ h => by cases h

theorem NoErrWr.wr {α} {m : E α} (h : NoErr m) : NoErrWr m.wr := fun e k hk => h e k hk

theorem NoErrWr.wrAll {α} {f : α → Wr Unit} (h : ∀ x, NoErrWr (f x)) : ∀ l, NoErrWr (wrAll f l)
  | [] => .pure _
  | x :: l => .bind (h x) fun _ => NoErrWr.wrAll h l

theorem NoErr.addU32 (a b : Nat) : NoErr (addU32 a b) := by
  intro e k h; unfold Mp4.addU32 at h; split at h; · cases h
  split at h <;> cases h

theorem NoErrWr.writeHead (h : Head) : NoErrWr (writeHead h) := by
  unfold Mp4.writeHead
  split
  · exact .bind (.emit _) fun _ => .bind (.emit _) fun _ => .emit _
  · exact .bind (.emit _) fun _ => .emit _

theorem NoErrWr.writeRaw (d : Data) : NoErrWr d.writeRaw := by
  cases d <;> first | exact .emit _ | exact .wrAll (fun _ => .emit _) _

theorem NoErrWr.writeDataAtom (d : Data) : NoErrWr (writeDataAtom d) :=
  .bind (.wr (.addU32 _ _)) fun _ => .bind (.emit _) fun _ => .bind (.emit _) fun _ => .bind (.emit _) fun _ =>
    .bind (.emit _) fun _ => .writeRaw d

theorem NoErrWr.writeStrAtom (f : Fourcc) (s : Str) : NoErrWr (writeStrAtom f s) :=
  .bind (.wr (.addU32 _ _)) fun _ => .bind (.emit _) fun _ => .bind (.emit _) fun _ => .bind (.emit _) fun _ => .emit _

theorem NoErrWr.atomWrite (a : AtomData) : NoErrWr a.write := by
  unfold AtomData.write
  refine .bind (.emit _) fun _ => ?_
  split
  · exact .bind (.emit _) fun _ => .wrAll .writeDataAtom _
  · exact .bind (.emit _) fun _ => .bind (.writeStrAtom _ _) fun _ => .bind (.writeStrAtom _ _) fun _ => .wrAll .writeDataAtom _

theorem NoErrWr.writeIlst (a : List AtomData) : NoErrWr (writeIlst a) := .bind (.writeHead _) fun _ => .wrAll .atomWrite _

theorem NoErrWr.writeHdlr (h : Bytes) : NoErrWr (writeHdlr h) := .bind (.writeHead _) fun _ => .emit _

theorem NoErrWr.writeFullHead (v : UInt8) (f : Bytes) : NoErrWr (writeFullHead v f) := .bind (.emit _) fun _ => .emit _

/-- Every description of a write is one of `T`, and there is no other error. -/
def Tags {α} (T : Str → Prop) (m : WrD α) : Prop := ∀ e, (∀ c ∈ (m e).1, T c.1) ∧ ∀ k, (m e).2 ≠ .err k

variable {T : Str → Prop}

theorem Tags.bind {α β} {m : WrD α} {f : α → WrD β} (h1 : Tags T m) (h2 : ∀ a, Tags T (f a)) : Tags T (m >>= f) := by
  intro e
  change (∀ c ∈ (WrD.bind m f e).1, T c.1) ∧ ∀ k, (WrD.bind m f e).2 ≠ .err k
  have h1 := h1 e
  unfold WrD.bind
  split
  · rename_i hm
    rw [hm] at h1
    refine ⟨fun c hc => ?_, (h2 _ e).2⟩
    rcases List.mem_append.mp hc with hc | hc
    · exact h1.1 c hc
    · exact (h2 _ e).1 c hc
  · rename_i hm
    rw [hm] at h1
    exact absurd rfl (h1.2 _)
  · rename_i hm
    rw [hm] at h1
    exact ⟨h1.1, fun k h => by cases h⟩
  · rename_i hm
    rw [hm] at h1
    exact ⟨h1.1, fun k h => by cases h⟩

theorem Tags.pure {α} (a : α) : Tags T (pure a : WrD α) := fun _ => ⟨fun _ h => (by cases h), fun _ h => (by cases h)⟩

theorem Tags.quiet {α} {m : Wr α} (hm : NoErrWr m) (h : T []) : Tags T (quietWr m) := by
  intro e
  refine ⟨fun c hc => ?_, hm e⟩
  obtain ⟨b, -, rfl⟩ := List.mem_map.mp hc
  exact h

theorem Tags.within {α} {T' : Str → Prop} {f : Fourcc} {m : WrD α} (h : Tags T' m) (ht : ∀ d, T' d → T (writingText f ++ d)) :
    Tags T (withinWr f m) := by
  intro e
  refine ⟨fun c hc => ?_, (h e).2⟩
  obtain ⟨b, hb, rfl⟩ := List.mem_map.mp hc
  exact ht _ ((h e).1 b hb)

theorem Tags.wrOpt {α} {f : α → WrD Unit} (h : ∀ a, Tags T (f a)) (o : Option α) : Tags T (wrOptD f o) := by
  cases o with
  | none => exact .pure _
  | some a => exact h a

theorem writing_cons (f : Fourcc) (path : List Fourcc) (text : Str) :
    whileWriting (f :: path) text = writingText f ++ whileWriting path text := by
  have h : "Error ".toList ++ "writing".toList ++ " ".toList = "Error writing ".toList := by decide +kernel
  unfold writingText
  rw [← h]
  show "Error ".toList ++ "writing".toList ++ " ".toList ++ f.display ++ ": ".toList ++ inAtoms "writing".toList path text = _
  unfold whileWriting
  generalize inAtoms "writing".toList path text = x
  rfl

/-- The number of bytes of the writes. -/
def total (cs : List (Str × Bytes)) : Nat := (cs.map fun c => c.2.length).sum

theorem total_append (a b : List (Str × Bytes)) : total (a ++ b) = total a + total b := by
  unfold total; rw [List.map_append, List.sum_append]

theorem total_map (g : Str × Bytes → Str) (cs : List (Str × Bytes)) : total (cs.map fun c => (g c, c.2)) = total cs := by
  unfold total; rw [List.map_map]; rfl

/-- At most `n` bytes are written. -/
def Small {α} (n : Nat) (m : WrD α) : Prop := ∀ e, total (m e).1 ≤ n ∧ ∀ k, (m e).2 ≠ .err k

theorem Small.bind {α β} {a b : Nat} {m : WrD α} {f : α → WrD β} (h1 : Small a m) (h2 : ∀ x, Small b (f x)) : Small (a + b) (m >>= f) := by
  intro e
  change total (WrD.bind m f e).1 ≤ _ ∧ ∀ k, (WrD.bind m f e).2 ≠ .err k
  have h1 := h1 e
  unfold WrD.bind
  split
  · rename_i x hm
    rw [hm] at h1
    refine ⟨?_, (h2 x e).2⟩
    have := (h2 x e).1
    have := h1.1
    dsimp only at this ⊢
    rw [total_append]
    omega
  · rename_i hm
    rw [hm] at h1
    exact absurd rfl (h1.2 _)
  · rename_i hm
    rw [hm] at h1
    exact ⟨by have := h1.1; dsimp only at this ⊢; omega, fun k h => by cases h⟩
  · rename_i hm
    rw [hm] at h1
    exact ⟨by have := h1.1; dsimp only at this ⊢; omega, fun k h => by cases h⟩

theorem Small.mono {α} {n n' : Nat} {m : WrD α} (h : Small n m) (hn : n ≤ n') : Small n' m := fun e =>
  ⟨Nat.le_trans (h e).1 hn, (h e).2⟩

theorem Small.pure {α} (a : α) : Small 0 (pure a : WrD α) := fun _ => ⟨Nat.le_refl _, fun _ h => by cases h⟩

theorem Small.within {α} {n : Nat} {f : Fourcc} {m : WrD α} (h : Small n m) : Small n (withinWr f m) := by
  intro e
  refine ⟨?_, (h e).2⟩
  have := total_map (fun c => writingText f ++ c.1) (m e).1
  unfold withinWr
  rw [this]
  exact (h e).1

theorem quietWr_bind {α β} (m : Wr α) (f : α → Wr β) : quietWr (m >>= f) = (quietWr m >>= fun a => quietWr (f a)) := by
  funext e
  change (((Wr.bind m f e).1.map fun b => ([], b)), (Wr.bind m f e).2) = WrD.bind (quietWr m) _ e
  unfold Wr.bind WrD.bind quietWr
  cases hm : m e with
  | mk c o =>
    cases o with
    | ok a => dsimp only; rw [List.map_append]
    | err k => rfl
    | panic => rfl
    | fuel => rfl

theorem Small.emit (b : Bytes) : Small b.length (quietWr (emit b)) := fun e => ⟨by
  show total [([], b)] ≤ _
  simp [total], fun k h => by cases h⟩

theorem Small.emit' {b : Bytes} {n : Nat} (h : b.length = n) : Small n (quietWr (Mp4.emit b)) := h ▸ Small.emit b

theorem Small.writeHead (h : Head) : Small 16 (quietWr (writeHead h)) := by
  unfold Mp4.writeHead
  split
  · rw [quietWr_bind]
    refine .bind (a := 4) (b := 12) (.emit' (toBe_length _ _)) fun _ => ?_
    rw [quietWr_bind]
    exact .bind (a := 4) (b := 8) (.emit' rfl) fun _ => .emit' (toBe_length _ _)
  · rw [quietWr_bind]
    exact .bind (a := 4) (b := 12) (.emit' (toBe_length _ _)) fun _ => (Small.emit' (n := 4) rfl).mono (by omega)

theorem Small.writeFullHead (v : UInt8) {f : Bytes} (hf : f.length = 3) : Small 4 (quietWr (writeFullHead v f)) := by
  unfold Mp4.writeFullHead
  rw [quietWr_bind]
  exact .bind (a := 1) (b := 3) (.emit' rfl) fun _ => .emit' hf

theorem Small.writeHdlr {h : Bytes} {n : Nat} (hh : h.length = n) : Small (16 + n) (writeHdlrD h) := by
  unfold writeHdlrD Mp4.writeHdlr
  rw [quietWr_bind]
  exact .within (.bind (.writeHead _) fun _ => .emit' hh)

/-- After at most `n` bytes, every description of a write is one of `T`, and there is no other error. -/
def Late {α} (n : Nat) (T : Str → Prop) (m : WrD α) : Prop := ∀ e, ∃ A B, (m e).1 = A ++ B ∧ total A ≤ n ∧ (∀ c ∈ B, T c.1) ∧
  ∀ k, (m e).2 ≠ .err k

theorem Late.of {α} {m : WrD α} (h : Tags T m) : Late 0 T m := fun e => ⟨[], (m e).1, rfl, Nat.le_refl _, (h e).1, (h e).2⟩

theorem Late.mono {α} {n n' : Nat} {m : WrD α} (h : Late n T m) (hn : n ≤ n') : Late n' T m := by
  intro e
  obtain ⟨A, B, h1, h2, h3, h4⟩ := h e
  exact ⟨A, B, h1, by omega, h3, h4⟩

theorem Late.bind {α β} {a b : Nat} {m : WrD α} {f : α → WrD β} (h1 : Small a m) (h2 : ∀ x, Late b T (f x)) : Late (a + b) T (m >>= f) := by
  intro e
  change ∃ A B, (WrD.bind m f e).1 = A ++ B ∧ total A ≤ _ ∧ (∀ c ∈ B, T c.1) ∧ ∀ k, (WrD.bind m f e).2 ≠ .err k
  have h1 := h1 e
  unfold WrD.bind
  split
  · rename_i c x hm
    rw [hm] at h1
    obtain ⟨A, B, g1, g2, g3, g4⟩ := h2 x e
    refine ⟨c ++ A, B, ?_, ?_, g3, g4⟩
    · dsimp only; rw [g1, List.append_assoc]
    · have := h1.1
      dsimp only at this
      rw [total_append]
      omega
  · rename_i hm
    rw [hm] at h1
    exact absurd rfl (h1.2 _)
  · rename_i c hm
    rw [hm] at h1
    exact ⟨c, [], by simp, by have := h1.1; dsimp only at this; omega, fun c h => (by cases h), fun k h => (by cases h)⟩
  · rename_i c hm
    rw [hm] at h1
    exact ⟨c, [], by simp, by have := h1.1; dsimp only at this; omega, fun c h => (by cases h), fun k h => (by cases h)⟩

theorem Late.within {α} {n : Nat} {T' : Str → Prop} {f : Fourcc} {m : WrD α} (h : Late n T' m) (ht : ∀ d, T' d → T (writingText f ++ d)) :
    Late n T (withinWr f m) := by
  intro e
  obtain ⟨A, B, h1, h2, h3, h4⟩ := h e
  refine ⟨A.map fun c => (writingText f ++ c.1, c.2), B.map fun c => (writingText f ++ c.1, c.2), ?_, ?_, fun c hc => ?_, h4⟩
  · unfold withinWr; rw [h1, List.map_append]
  · rw [total_map (fun c => writingText f ++ c.1)]; exact h2
  · obtain ⟨b, hb, rfl⟩ := List.mem_map.mp hc
    exact ht _ (h3 b hb)

/-- The texts inside the written atom at `pre`. -/
def WSub (pre : List Fourcc) (d : Str) : Prop := ∃ path, pre ++ path ∈ newItemPaths ∧ d = whileWriting path []

theorem WSub.up {f : Fourcc} {d : Str} (h : WSub (pre ++ [f]) d) : WSub pre (writingText f ++ d) := by
  obtain ⟨path, h1, rfl⟩ := h
  exact ⟨f :: path, by rw [List.append_assoc] at h1; exact h1, (writing_cons f path []).symm⟩

theorem WSub.here (h : pre ∈ newItemPaths) : WSub pre [] := ⟨[], by rw [List.append_nil]; exact h, rfl⟩

theorem tags_ilst (a : List AtomData) (hp : pre ++ [ITEM_LIST] ∈ newItemPaths) : Tags (WSub pre) (writeIlstD a) :=
  .within (.quiet (.writeIlst a) (WSub.here hp)) fun _ => WSub.up

/-- The handler that is written is that of `Meta::hdlr`. -/
structure PlanHdlr (atoms : List AtomData) (p : Plan) : Prop where
  udta : p.newUdta = none ∨ p.newUdta = some (some ⟨some metaHdlr, some atoms⟩)
  meta_ : p.newMeta = none ∨ p.newMeta = some ⟨some metaHdlr, some atoms⟩
  hdlr : p.newHdlr = none ∨ p.newHdlr = some metaHdlr

theorem mkPlan_hdlr {e : Env} {moov atoms p} (h : mkPlan moov atoms e = .ok p) : PlanHdlr atoms p := by
  obtain ⟨mb, tr, ud⟩ := moov
  match ud with
  | none =>
    simp only [mkPlan, Option.bind_none] at h
    obtain ⟨a1, h1, k1⟩ := E.bind_inv h
    obtain ⟨a2, h2, k2⟩ := E.bind_inv k1
    obtain ⟨a3, h3, k3⟩ := E.bind_inv k2
    obtain ⟨d, h5, k5⟩ := E.bind_inv k3
    obtain rfl := E.pure_inv k5
    exact ⟨.inr rfl, .inl rfl, .inl rfl⟩
  | some ⟨bu, none⟩ =>
    simp only [mkPlan, Option.bind_some] at h
    obtain ⟨a1, h1, k1⟩ := E.bind_inv h
    obtain ⟨a2, h2, k2⟩ := E.bind_inv k1
    obtain ⟨a3, h3, k3⟩ := E.bind_inv k2
    obtain ⟨d, h5, k5⟩ := E.bind_inv k3
    obtain rfl := E.pure_inv k5
    exact ⟨.inl rfl, .inr rfl, .inl rfl⟩
  | some ⟨bu, some ⟨bm, hd, x⟩⟩ =>
    simp only [mkPlan, Option.bind_some] at h
    obtain ⟨a1, h1, k1⟩ := E.bind_inv h
    obtain ⟨a2, h2, k2⟩ := E.bind_inv k1
    obtain ⟨a3, h3, k3⟩ := E.bind_inv k2
    obtain ⟨d, h5, k5⟩ := E.bind_inv k3
    obtain rfl := E.pure_inv k5
    refine ⟨.inl rfl, .inl rfl, ?_⟩
    dsimp only
    split
    · exact .inr rfl
    · exact .inl rfl

theorem late_meta (atoms : List AtomData) (hp : pre ++ [METADATA] ++ [ITEM_LIST] ∈ newItemPaths) :
    Late 61 (WSub pre) (writeMetaD ⟨some metaHdlr, some atoms⟩) :=
  .within (.bind (a := 16) (b := 45) (.writeHead _) fun _ => .bind (a := 4) (b := 41) (.writeFullHead _ rfl) fun _ =>
    .bind (a := 41) (b := 0) (.writeHdlr (n := 25) rfl) fun _ => .of (tags_ilst atoms hp)) fun _ => WSub.up

theorem late_new {p : Plan} {atoms : List AtomData} (h : PlanHdlr atoms p) : Late 77 (WSub []) (newAtomsWrD p atoms) := by
  obtain ⟨h1, h2, h3⟩ := h
  unfold newAtomsWrD
  rcases h1 with h1 | h1
  · rcases h2 with h2 | h2
    · rw [h1, h2]
      dsimp only
      rcases h3 with h3 | h3
      · rw [h3]
        exact (Late.bind (a := 0) (b := 0) (.pure _) fun _ => .of (tags_ilst _ (by decide +kernel))).mono (by omega)
      · rw [h3]
        exact (Late.bind (a := 41) (b := 0) (.writeHdlr (n := 25) rfl) fun _ => .of (tags_ilst _ (by decide +kernel))).mono (by omega)
    · rw [h1, h2]
      exact (late_meta atoms (by decide +kernel)).mono (by omega)
  · rw [h1]
    exact .within (.bind (a := 16) (b := 61) (.writeHead _) fun _ => late_meta atoms (by decide +kernel)) fun _ => WSub.up

/-! ### Writing -/

/-- Every error, with its description, is one of `S`. -/
def SaysF {α} (e : Env) (S : ErrKind → Str → Prop) (m : FD α) : Prop := ∀ fl s k d s', m fl e s = (.err k d, s') → S k d

variable {S : ErrKind → Str → Prop} {e : Env}

theorem SaysF.pure {α} (a : α) : SaysF e S (pure a : FD α) := fun _ _ _ _ _ h => by cases h

theorem SaysF.bind {α β} {m : FD α} {f : α → FD β} (h1 : SaysF e S m) (h2 : ∀ a, SaysF e S (f a)) : SaysF e S (m >>= f) := by
  intro fl s k d s' h
  change FD.bind m f fl e s = _ at h
  unfold FD.bind at h
  split at h
  · exact h2 _ _ _ _ _ _ h
  · cases h; exact h1 _ _ _ _ _ ‹_›
  · cases h
  · cases h

theorem SaysF.reassoc {α β γ} {a : FD α} {b : FD β} {c : β → FD γ} (h : SaysF e S ((do let _ ← a; b) >>= c)) :
    SaysF e S (do let _ ← a; let x ← b; c x) := by
  intro fl s k d s' h'
  refine h fl s k d s' ?_
  rw [← h']
  change FD.bind (FD.bind a fun _ => b) c fl e s = FD.bind a (fun _ => FD.bind b c) fl e s
  unfold FD.bind
  cases a fl e s with
  | mk r s1 => cases r <;> rfl

theorem SaysF.all {α} {f : α → FD Unit} : ∀ {l : List α}, (∀ x ∈ l, SaysF e S (f x)) → SaysF e S (fdAll f l)
  | [], _ => .pure _
  | x :: l, h => .bind (h x (by simp)) fun _ => SaysF.all fun y hy => h y (by simp [hy])

theorem SaysF.opt {α} {f : α → FD Unit} {o : Option α} (h : ∀ a, o = some a → SaysF e S (f a)) : SaysF e S (fdOpt f o) := by
  cases o with
  | none => exact .pure _
  | some a => exact h a rfl

/-- The only errors are I/O errors. -/
def IoOnlyF {α} (m : FW α) : Prop := ∀ fl e s k s', m fl e s = (.err k, s') → k = .io

theorem IoOnlyF.pure {α} (a : α) : IoOnlyF (pure a : FW α) := fun _ _ _ _ _ h => by cases h

theorem IoOnlyF.bind {α β} {m : FW α} {f : α → FW β} (h1 : IoOnlyF m) (h2 : ∀ a, IoOnlyF (f a)) : IoOnlyF (m >>= f) := by
  intro fl e s k s' h
  change FW.bind m f fl e s = _ at h
  unfold FW.bind at h
  split at h
  · exact h2 _ _ _ _ _ _ h
  · cases h; exact h1 _ _ _ _ _ ‹_›
  · cases h
  · cases h

theorem IoOnlyF.all {α} {f : α → FW Unit} (h : ∀ x, IoOnlyF (f x)) : ∀ l : List α, IoOnlyF (fAll f l)
  | [] => .pure _
  | x :: l => .bind (h x) fun _ => IoOnlyF.all h l

theorem IoOnlyF.fw {α} {m : E α} (h : NoErr m) : IoOnlyF m.fw := by
  intro fl e s k s' hk
  cases hm : m e with
  | err k' => exact absurd hm (h _ _)
  | ok x => unfold E.fw at hk; rw [hm] at hk; cases hk
  | panic => unfold E.fw at hk; rw [hm] at hk; cases hk
  | fuel => unfold E.fw at hk; rw [hm] at hk; cases hk

theorem IoOnlyF.flushBuf : IoOnlyF fFlushBuf := by
  intro fl e s k s' h
  unfold fFlushBuf at h
  split at h
  · cases h
  · split at h <;> cases h
    rfl

theorem IoOnlyF.sysWrite (b : Bytes) : IoOnlyF (fSysWrite b) := by
  intro fl e s k s' h
  unfold fSysWrite at h
  split at h
  · cases h
  · split at h <;> cases h
    rfl

theorem IoOnlyF.writeDirect (b : Bytes) : IoOnlyF (fWriteDirect b) := by
  intro fl e s k s' h
  unfold fWriteDirect at h
  split at h
  · exact IoOnlyF.sysWrite b _ _ _ _ _ h
  · cases h

theorem IoOnlyF.writeAll (b : Bytes) : IoOnlyF (fWriteAll b) := by
  intro fl e s k s' h
  unfold fWriteAll at h
  split at h
  · cases h
  · split at h
    · exact IoOnlyF.bind .flushBuf (fun _ => .writeDirect b) _ _ _ _ _ h
    · exact IoOnlyF.writeDirect b _ _ _ _ _ h

theorem IoOnlyF.seekStart (n : Nat) : IoOnlyF (fSeekStart n) := by
  refine .bind .flushBuf fun _ fl e s k s' h => ?_
  split at h <;> cases h
  rfl

theorem IoOnlyF.seekCur (n : Nat) : IoOnlyF (fSeekCur n) := by
  refine .bind .flushBuf fun _ fl e s k s' h => ?_
  split at h <;> cases h
  rfl

theorem IoOnlyF.setLen (n : Nat) : IoOnlyF (fSetLen n) := by
  intro fl e s k s' h
  unfold fSetLen at h
  split at h
  · split at h <;> cases h
    rfl
  · cases h
    rfl

theorem IoOnlyF.patchHead (d : Int) (a : AtomBounds) : IoOnlyF (fPatchHead d a) := by
  refine .bind (.fw (.addI _ _)) fun _ => .bind (.seekStart _) fun _ => ?_
  split
  · exact .bind (.writeAll _) fun _ => .bind (.seekCur _) fun _ => .writeAll _
  · exact .writeAll _

theorem SaysF.say {α} {d : Str} {m : FW α} (hm : IoOnlyF m) (h : S .io d) : SaysF e S (sayF d m) := by
  intro fl s k d' s' h'
  unfold sayF at h'
  cases hr : m fl e s with
  | mk r s1 =>
    rw [hr] at h'
    cases r with
    | ok a => cases h'
    | err k' => cases h'; rw [hm _ _ _ _ _ hr]; exact h
    | panic => cases h'
    | fuel => cases h'

theorem SaysF.quiet {α} {m : FW α} (hm : IoOnlyF m) (h : S .io []) : SaysF e S (quietF m) := .say hm h

/-- Small writes only fill the buffer. -/
theorem fdAll_buffered {fl : Faults} (B : List (Str × Bytes)) : ∀ (A : List (Str × Bytes)) (s : FSt), s.buf.length + total A < e.cap →
    ∃ s', fdAll (fun c => sayF c.1 (fWriteAll c.2)) (A ++ B) fl e s = fdAll (fun c => sayF c.1 (fWriteAll c.2)) B fl e s' ∧
      s'.buf.length = s.buf.length + total A ∧ s'.tick = s.tick
  | [], s, _ => ⟨s, rfl, rfl, rfl⟩
  | c :: A, s, h => by
    have hc : total (c :: A) = c.2.length + total A := rfl
    rw [hc] at h
    have hw : fWriteAll c.2 fl e s = (.ok (), { s with buf := s.buf ++ c.2 }) := by
      unfold fWriteAll; rw [if_pos (by omega)]
    obtain ⟨s', h1, h2, h3⟩ := fdAll_buffered B A { s with buf := s.buf ++ c.2 } (by
      show (s.buf ++ c.2).length + _ < _
      rw [List.length_append]; omega)
    refine ⟨s', ?_, ?_, h3⟩
    · rw [← h1]
      show FD.bind (sayF c.1 (fWriteAll c.2)) _ fl e s = _
      unfold FD.bind sayF
      rw [hw]
      rfl
    · rw [h2, hc]
      show (s.buf ++ c.2).length + _ = _
      rw [List.length_append]; omega

theorem fSeekStart_buf {fl : Faults} {n : Nat} {s s' : FSt} (h : fSeekStart n fl e s = (.ok (), s')) : s'.buf = [] := by
  unfold fSeekStart at h
  change FW.bind fFlushBuf (fun _ _ e s => if n ≤ e.maxPos then (.ok (), { s with cur := n }) else (.err .io, s)) fl e s = _ at h
  unfold FW.bind at h
  split at h
  · rename_i u s1 hf
    have hb : s1.buf = [] := by
      unfold fFlushBuf at hf
      split at hf
      · rename_i he
        cases hf
        exact List.isEmpty_iff.mp he
      · split at hf
        · cases hf
          unfold WSt.flushBuf WSt.sysWrite
          dsimp only
        · cases hf
    dsimp only at h
    split at h <;> cases h
    exact hb
  · cases h
  · cases h
  · cases h

theorem SaysF.emit {n N : Nat} {m : WrD Unit} (hm : Late N T m) (hc : N < e.cap) (hio : S .io []) (h : ∀ d, T d → S .io d) :
    SaysF e S (do quietF (fSeekStart n); fdEmit m) := by
  intro fl s k d s' h'
  change FD.bind (quietF (fSeekStart n)) _ fl e s = _ at h'
  unfold FD.bind at h'
  split at h'
  · rename_i u s1 hs
    have hb : s1.buf = [] := by
      cases hr : fSeekStart n fl e s with
      | mk r s2 =>
        unfold quietF sayF at hs
        rw [hr] at hs
        cases r with
        | ok a => cases hs; exact fSeekStart_buf hr
        | err k => cases hs
        | panic => cases hs
        | fuel => cases hs
    obtain ⟨A, B, h1, h2, h3, h4⟩ := hm e
    unfold fdEmit at h'
    dsimp only at h'
    rw [h1] at h'
    obtain ⟨s2, h5, -⟩ := fdAll_buffered (e := e) (fl := fl) B A s1 (by rw [hb]; show 0 + _ < _; omega)
    rw [h5] at h'
    split at h'
    · cases hr : (m e).2 with
      | err k' => exact absurd hr (h4 k')
      | ok a => rw [hr] at h'; cases h'
      | panic => rw [hr] at h'; cases h'
      | fuel => rw [hr] at h'; cases h'
    · exact SaysF.all (S := S) (fun c hc => .say (.writeAll _) (h _ (h3 c hc))) _ _ _ _ _ h'
  · cases h'
    exact SaysF.quiet (.seekStart n) hio _ _ _ _ _ ‹_›
  · cases h'
  · cases h'

theorem NoErr.contentPos (a : AtomBounds) : NoErr a.contentPos := .addU _ _

/-- A table is one of the two kinds. -/
theorem says_table {G : Bytes} (t : TableKind) (ht : t = stcoKind ∨ t = co64Kind) (size : Size) :
    Says G (fun k d => ∃ text, TableFault t.fourcc k text ∧ d = whileParsing [t.fourcc] text) (parseTableD t size) := by
  have hf : t.fourcc = cc 's' 't' 'c' 'o' ∨ t.fourcc = cc 'c' 'o' '6' '4' := by
    rcases ht with rfl | rfl
    · exact .inl rfl
    · exact .inr rfl
  refine .within (S' := TableFault t.fourcc) ?_ fun k d h => ⟨d, h, (parsing_cons _ [] d).symm⟩
  have hio : TableFault t.fourcc .io [] := .io hf
  refine .bind (.parseFullHead ⟨.full hf .version, .full hf .flags⟩) fun x => ?_
  obtain ⟨v, fl⟩ := x
  refine .ite _ (fun _ => .bind (.quiet .readU32 hio) fun _ => .bind (.quiet (.p (.contentLen _)) hio) fun _ =>
    .ite _ (fun _ => .fail ?_) fun _ => .bind (.quiet .tellP hio) fun _ => .bind (.quiet (.readTable _ _) hio) fun _ => .pure _)
    fun h0 => .fail ?_
  · rcases ht with rfl | rfl
    · exact .stcoSize
    · exact .co64Size
  · rcases ht with rfl | rfl
    · exact .stcoVersion v h0
    · exact .co64Version v h0

theorem says_patchTable (t : TableKind) (ht : t = stcoKind ∨ t = co64Kind) (diff : Int) (a : AtomBounds) (hn : Named F t.fourcc) :
    SaysF e (SaveExplains F) (fdPatchTable t diff a) := by
  have hio : SaveExplains F .io [] := .io rfl rfl
  have hf : t.fourcc = cc 's' 't' 'c' 'o' ∨ t.fourcc = cc 'c' 'o' '6' '4' := by
    rcases ht with rfl | rfl
    · exact .inl rfl
    · exact .inr rfl
  refine .bind (.quiet (.fw (.contentPos _)) hio) fun pos => .bind ?_ fun x => ?_
  · intro fl s k d s' h
    unfold fdRead at h
    dsimp only at h
    split at h
    · have := Says.bind (F := s.file) (S := SaveExplains F) (.quiet (.seekStart pos) hio) fun _ =>
        (says_table t ht a.size).mono fun k d h => by
          obtain ⟨text, h1, h2⟩ := h
          exact .table t.fourcc text h1 h2 hn
      split at h
      · cases h
      · cases h
        exact this _ _ _ _ ‹_›
      · cases h
      · cases h
    · rename_i n _
      cases h
      have hp : ∀ text, parsingText t.fourcc ++ text = whileParsing [t.fourcc] text := fun text => (parsing_cons _ [] text).symm
      match n with
      | 0 => exact hio
      | 1 => exact .table t.fourcc _ (.full hf .version) (hp _) hn
      | 2 => exact .table t.fourcc _ (.full hf .flags) (hp _) hn
      | 3 => exact .table t.fourcc [] (.io hf) ((List.append_nil _).symm.trans (hp [])) hn
      | n+4 => exact hio
  · obtain ⟨tp, off⟩ := x
    exact .quiet (.bind (.seekStart _) fun _ => .bind (.all (fun _ => .bind (.fw (.addI _ _)) fun _ => .writeAll _) _) fun _ =>
      .flushBuf) hio

theorem says_writePhase (mdatPos : Nat) (moov : MoovBounds) (p : Plan) (oldLen : Nat) (moved : Bytes) (atoms : List AtomData)
    (hm : MoovNamed F moov) (hp : PlanHdlr atoms p) (hc : 128 ≤ e.cap) : SaysF e (SaveExplains F) (fdWritePhase mdatPos moov p oldLen moved atoms) := by
  have hio : SaveExplains F .io [] := .io rfl rfl
  have hnew : SaysF e (SaveExplains F) (do quietF (fSeekStart p.newAtomsStart); fdEmit (newAtomsWrD p atoms)) :=
    .emit (late_new hp) (by omega) hio fun d hd => by
      obtain ⟨path, h1, h2⟩ := hd
      exact .write path h1 rfl h2
  have hrest : SaysF e (SaveExplains F) (do
      quietF (fAll (fPatchHead p.lenDiff) p.updateAtoms.reverse)
      let n ← quietF (addI (asI64 oldLen) p.lenDiff).fw
      quietF (fSetLen (asU64 n))
      quietF (fSeekStart p.newAtomsStart)
      fdEmit (newAtomsWrD p atoms)
      let m ← quietF (addI (asI64 p.movedDataStart) p.lenDiff).fw
      quietF (fSeekStart (asU64 m))
      quietF (fWriteAll moved)
      quietF fFlush) :=
    .bind (.quiet (.all (.patchHead _) _) hio) fun _ => .bind (.quiet (.fw (.addI _ _)) hio) fun _ =>
      .bind (.quiet (.setLen _) hio) fun _ => .reassoc <| .bind hnew fun _ =>
      .bind (.quiet (.fw (.addI _ _)) hio) fun _ => .bind (.quiet (.seekStart _) hio) fun _ =>
      .bind (.quiet (.writeAll _) hio) fun _ => .quiet .flushBuf hio
  unfold fdWritePhase
  split
  · refine .bind (.all fun b hb => .bind (.opt fun a ha => ?_) fun _ => .opt fun a ha => ?_) fun _ => hrest
    · exact says_patchTable _ (.inl rfl) _ _ ((stblAtoms_named hm b hb).1 (by rw [ha]; simp))
    · exact says_patchTable _ (.inr rfl) _ _ ((stblAtoms_named hm b hb).2 (by rw [ha]; simp))
  · exact hrest

theorem prepare_hdlr {pos : Nat} {atoms : List AtomData} {mdatPos moov p oldLen moved q}
    (h : preparePhaseD atoms e F pos = .ok ((mdatPos, moov, p, oldLen, moved), q)) : PlanHdlr atoms p := by
  have h1 : preparePhase atoms e F pos = .ok ((mdatPos, moov, p, oldLen, moved), q) := by
    rw [← preparePhaseD_forget, ← D.forget_apply, h]
    rfl
  unfold preparePhase at h1
  obtain ⟨x, q1, -, k1⟩ := P.bind_inv h1
  obtain ⟨p', q2, h2, k2⟩ := P.bind_inv k1
  obtain ⟨ol', q3, -, k3⟩ := P.bind_inv k2
  obtain ⟨ml, q4, -, k4⟩ := P.bind_inv k3
  obtain ⟨_, q5, -, k5⟩ := P.bind_inv k4
  obtain ⟨_, q6, -, k6⟩ := P.bind_inv k5
  obtain ⟨mv, q7, -, k7⟩ := P.bind_inv k6
  cases k7
  exact mkPlan_hdlr (E.p_inv h2).1

theorem says_writeTag {fl : Faults} {pos : Nat} {atoms : List AtomData} {k : ErrKind} {d : Str} {s : FSt}
    (hc : 128 ≤ e.cap) (h : writeTagD fl e F pos atoms = (.err k d, s)) : SaveExplains F k d := by
  unfold writeTagD at h
  dsimp only at h
  split at h
  · rename_i hp
    have h1 := congrArg Prod.fst h
    dsimp only at h1
    generalize hr : fdWritePhase _ _ _ _ _ _ _ _ _ = r at h1
    exact says_writePhase _ _ _ _ _ _ (gives_prepare atoms _ _ _ _ hp) (prepare_hdlr hp) hc _ _ _ _ r.2 (hr.trans (Prod.ext h1 rfl))
  · rename_i hp
    cases h
    obtain ⟨path, text, h1, h2, h3, h4⟩ := says_prepare atoms _ _ _ _ hp
    exact .search path text h1 h2 h3 h4
  · cases h
  · cases h

end Mp4
