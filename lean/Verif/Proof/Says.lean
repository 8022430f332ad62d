import Verif.Proof.Describe
import Verif.Proof.Fail
import Verif.Proof.Stream
import Verif.Spec.Describe
/-
Which errors, with which descriptions, a function can return.
-/
namespace Mp4
open Spec

/-! ### Functions that only fail with I/O errors -/

/-- The only errors are I/O errors. -/
def IoOnly {α} (m : P α) : Prop := ∀ e F p k, m e F p = .err k → k = .io

theorem IoOnly.pure {α} (a : α) : IoOnly (pure a : P α) := fun _ _ _ _ h => by simp [P.pure_apply] at h

theorem IoOnly.bind {α β} {m : P α} {f : α → P β} (h1 : IoOnly m) (h2 : ∀ a, IoOnly (f a)) : IoOnly (m >>= f) := by
  intro e F p k h
  rw [P.bind_apply] at h
  cases hm : m e F p with
  | ok x => rw [hm] at h; exact h2 _ _ _ _ _ h
  | err k' => rw [hm] at h; cases h; exact h1 _ _ _ _ hm
  | panic => rw [hm] at h; cases h
  | fuel => rw [hm] at h; cases h

theorem IoOnly.ite {α} (c : Prop) [Decidable c] {a b : P α} (ha : IoOnly a) (hb : IoOnly b) :
    IoOnly (if c then a else b) := by split <;> assumption

theorem IoOnly.readExact (n : Nat) : IoOnly (readExact n) := by
  intro e F p k h
  unfold Mp4.readExact at h
  split at h <;> cases h
  rfl

theorem IoOnly.seekCur (n : Int) : IoOnly (seekCur n) := by
  intro e F p k h
  unfold Mp4.seekCur at h
  split at h <;> cases h
  rfl

theorem IoOnly.seekStart (n : Nat) : IoOnly (seekStart n) := by
  intro e F p k h
  unfold Mp4.seekStart at h
  split at h <;> cases h
  rfl

theorem IoOnly.tellP : IoOnly tellP := fun _ _ _ _ h => by cases h

theorem IoOnly.seekEnd : IoOnly seekEnd := fun _ _ _ _ h => by cases h

theorem IoOnly.getFuel : IoOnly getFuel := fun _ _ _ _ h => by cases h

theorem IoOnly.outOfFuel {α} : IoOnly (outOfFuel : P α) := fun _ _ _ _ h => by cases h

theorem IoOnly.readToEnd : IoOnly readToEnd := fun _ _ _ _ h => by cases h

/-- Arithmetic does not fail with an error. -/
def NoErr {α} (m : E α) : Prop := ∀ e k, m e ≠ .err k

theorem NoErr.pure {α} (a : α) : NoErr (pure a : E α) := fun _ _ h => by cases h

theorem NoErr.bind {α β} {m : E α} {f : α → E β} (h1 : NoErr m) (h2 : ∀ a, NoErr (f a)) : NoErr (m >>= f) := by
  intro e k h
  change (m e).bind _ = _ at h
  cases hm : m e with
  | ok x => rw [hm] at h; exact h2 _ _ _ h
  | err k' => exact h1 _ _ hm
  | panic => rw [hm] at h; cases h
  | fuel => rw [hm] at h; cases h

theorem NoErr.addU (a b : Nat) : NoErr (addU a b) := by
  intro e k h; unfold Mp4.addU at h; split at h; · cases h
  split at h <;> cases h
theorem NoErr.subU (a b : Nat) : NoErr (subU a b) := by
  intro e k h; unfold Mp4.subU at h; split at h; · cases h
  split at h <;> cases h
theorem NoErr.mulU (a b : Nat) : NoErr (mulU a b) := by
  intro e k h; unfold Mp4.mulU at h; split at h; · cases h
  split at h <;> cases h
theorem NoErr.divU (a b : Nat) : NoErr (divU a b) := by
  intro e k h; unfold Mp4.divU at h; split at h <;> cases h
theorem NoErr.addI (a b : Int) : NoErr (addI a b) := by
  intro e k h; unfold Mp4.addI at h; split at h; · cases h
  split at h <;> cases h
theorem NoErr.subI (a b : Int) : NoErr (subI a b) := by
  intro e k h; unfold Mp4.subI at h; split at h; · cases h
  split at h <;> cases h
theorem NoErr.allocU8 (n : Nat) : NoErr (allocU8 n) := by
  intro e k h; unfold Mp4.allocU8 at h; split at h <;> cases h
theorem NoErr.contentLen (s : Size) : NoErr s.contentLen := NoErr.subU _ _

theorem IoOnly.p {α} {m : E α} (h : NoErr m) : IoOnly m.p := by
  intro e F p k hk
  unfold E.p at hk
  cases hm : m e with
  | err k' => exact absurd hm (h _ _)
  | ok x => rw [hm] at hk; cases hk
  | panic => rw [hm] at hk; cases hk
  | fuel => rw [hm] at hk; cases hk

theorem IoOnly.readU8 : IoOnly readU8 := .bind (.readExact _) fun _ => .pure _
theorem IoOnly.readU16 : IoOnly readU16 := .bind (.readExact _) fun _ => .pure _
theorem IoOnly.readU32 : IoOnly readU32 := .bind (.readExact _) fun _ => .pure _
theorem IoOnly.readU64 : IoOnly readU64 := .bind (.readExact _) fun _ => .pure _
theorem IoOnly.readU8Vec (n : Nat) : IoOnly (readU8Vec n) := .bind (.p (.allocU8 _)) fun _ => .readExact _

theorem IoOnly.findBounds (s : Size) : IoOnly (findBounds s) := .bind .tellP fun _ => .bind (.p (.subU _ _)) fun _ => .pure _

theorem IoOnly.seekToEnd (b : AtomBounds) : IoOnly (seekToEnd b) :=
  .bind .tellP fun _ => .bind (.p (.addU _ _)) fun _ => .bind (.p (.subU _ _)) fun _ => .seekCur _

theorem IoOnly.skipContent (h : Head) : IoOnly (skipContent h) := .bind (.p (.contentLen _)) fun _ => .seekCur _

theorem IoOnly.findLeaf (s : Size) : IoOnly (findLeaf s) := .bind (.findBounds _) fun _ => .bind (.seekToEnd _) fun _ => .pure _

theorem IoOnly.remainingStreamLen : IoOnly remainingStreamLen :=
  .bind .tellP fun _ => .bind .seekEnd fun _ => .bind (.p (.subU _ _)) fun _ => .bind (.seekStart _) fun _ => .pure _

theorem IoOnly.descHeadLoop : ∀ k a b, IoOnly (descHeadLoop k a b)
  | 0, _, _ => .pure _
  | k+1, a, b => .bind .readU8 fun _ => .ite _ (.pure _) (IoOnly.descHeadLoop k _ _)

theorem IoOnly.parseDescHead : IoOnly parseDescHead := .bind .readU8 fun _ => .bind (.descHeadLoop _ _ _) fun _ => .pure _

theorem IoOnly.parseDsDesc (i : Mp4a) (n : Nat) : IoOnly (parseDsDesc i n) :=
  .bind .readU16 fun _ => .bind (.p (.subU _ _)) fun _ => .bind (.seekCur _) fun _ => .pure _

theorem IoOnly.descWalk (w : UInt8) {h : Mp4a → Nat → P Mp4a} (hh : ∀ i n, IoOnly (h i n)) (limit : Nat) : ∀ f i n,
    IoOnly (descWalk w h limit f i n)
  | 0, _, _ => .outOfFuel
  | f+1, i, n => .ite _
      (.bind .parseDescHead fun _ => .bind (.ite _ (hh _ _) (.bind (.seekCur _) fun _ => .pure _)) fun _ =>
        .bind (.p (.addU _ _)) fun _ => .bind (.p (.addU _ _)) fun _ => IoOnly.descWalk w hh limit f _ _)
      (.pure _)

theorem IoOnly.parseDcDesc (i : Mp4a) (n : Nat) : IoOnly (parseDcDesc i n) :=
  .bind (.seekCur _) fun _ => .bind .readU32 fun _ => .bind .readU32 fun _ => .bind .getFuel fun _ =>
    .descWalk _ .parseDsDesc _ _ _ _

theorem IoOnly.parseEsDesc (i : Mp4a) (n : Nat) : IoOnly (parseEsDesc i n) :=
  .bind (.seekCur _) fun _ => .bind .getFuel fun _ => .descWalk _ .parseDcDesc _ _ _ _

theorem IoOnly.readTable (w : Nat) : ∀ n, IoOnly (readTable w n)
  | 0 => .pure _
  | n+1 => .bind (.readExact _) fun _ => .bind (IoOnly.readTable w n) fun _ => .pure _

theorem NoErr.end_ (b : AtomBounds) : NoErr b.end_ := .addU _ _

theorem NoErr.mkPlan (moov : MoovBounds) (atoms : List AtomData) : NoErr (mkPlan moov atoms) := by
  unfold Mp4.mkPlan
  dsimp only
  refine .bind ?_ fun _ => .bind ?_ fun _ => .bind ?_ fun _ => .bind (.addI _ _) fun _ => .pure _
  · split
    · exact .bind (.end_ _) fun _ => .bind (.subI _ _) fun _ => .pure _
    · exact .pure _
  · split
    · split
      · exact .bind (.end_ _) fun _ => .pure _
      · exact .pure _
    · exact .pure _
  · split
    · split
      · exact .bind (.end_ _) fun _ => .pure _
      · exact .pure _
    · exact .bind (.end_ _) fun _ => .pure _

/-! ### Functions with descriptions -/

/-- Every error, with its description, is one of `S`. -/
def Says (F : Bytes) {α} (S : ErrKind → Str → Prop) (m : D α) : Prop := ∀ e p k d, m e F p = .err k d → S k d

/-- Every value is one of `Q`. -/
def Gives (F : Bytes) {α} (Q : α → Prop) (m : D α) : Prop := ∀ e p a q, m e F p = .ok (a, q) → Q a

variable {F : Bytes} {S : ErrKind → Str → Prop}

theorem D.bind_apply {α β} (m : D α) (f : α → D β) (e F p) :
    (m >>= f) e F p = (match m e F p with
      | .ok (a, p') => f a e F p'
      | .err k d => .err k d
      | .panic => .panic
      | .fuel => .fuel) := rfl

theorem Says.pure {α} (a : α) : Says F S (pure a : D α) := fun _ _ _ _ h => by cases h

theorem Says.bindQ {α β} {m : D α} {f : α → D β} {Q : α → Prop} (h1 : Says F S m) (hg : Gives F Q m)
    (h2 : ∀ a, Q a → Says F S (f a)) : Says F S (m >>= f) := by
  intro e p k d h
  rw [D.bind_apply] at h
  cases hm : m e F p with
  | ok x => rw [hm] at h; exact h2 _ (hg _ _ _ _ hm) _ _ _ _ h
  | err k' d' => rw [hm] at h; cases h; exact h1 _ _ _ _ hm
  | panic => rw [hm] at h; cases h
  | fuel => rw [hm] at h; cases h

theorem Says.bind {α β} {m : D α} {f : α → D β} (h1 : Says F S m) (h2 : ∀ a, Says F S (f a)) : Says F S (m >>= f) :=
  .bindQ h1 (Q := fun _ => True) (fun _ _ _ _ _ => trivial) fun a _ => h2 a

theorem Says.ite {α} (c : Prop) [Decidable c] {a b : D α} (ha : c → Says F S a) (hb : ¬c → Says F S b) :
    Says F S (if c then a else b) := by
  split
  · exact ha ‹_›
  · exact hb ‹_›

theorem Says.fail {α} {k : ErrKind} {d : Str} (h : S k d) : Says F S (failD k d : D α) := by
  intro e p k' d' h'
  cases h'
  exact h

theorem Says.say {α} {d : Str} {m : P α} (hm : IoOnly m) (h : S .io d) : Says F S (say d m) := by
  intro e p k d' h'
  unfold Mp4.say at h'
  cases hr : m e F p with
  | err k' => rw [hr] at h'; cases h'; rw [hm _ _ _ _ hr]; exact h
  | ok x => rw [hr] at h'; cases h'
  | panic => rw [hr] at h'; cases h'
  | fuel => rw [hr] at h'; cases h'

theorem Says.quiet {α} {m : P α} (hm : IoOnly m) (h : S .io []) : Says F S (quiet m) := Says.say hm h

theorem Says.mono {α} {S' : ErrKind → Str → Prop} {m : D α} (h : Says F S m) (hs : ∀ k d, S k d → S' k d) : Says F S' m :=
  fun e p k d h' => hs _ _ (h e p k d h')

theorem Says.within {α} {S' : ErrKind → Str → Prop} {f : Fourcc} {m : D α} (h : Says F S' m)
    (hs : ∀ k d, S' k d → S k (parsingText f ++ d)) : Says F S (within f m) := by
  intro e p k d h'
  unfold Mp4.within at h'
  cases hr : m e F p with
  | err k' d' => rw [hr] at h'; cases h'; exact hs _ _ (h _ _ _ _ hr)
  | ok x => rw [hr] at h'; cases h'
  | panic => rw [hr] at h'; cases h'
  | fuel => rw [hr] at h'; cases h'

theorem Gives.say {α} {d : Str} {m : P α} {Q : α → Prop} (h : ∀ e p a q, m e F p = .ok (a, q) → Q a) : Gives F Q (say d m) := by
  intro e p a q h'
  unfold Mp4.say at h'
  cases hr : m e F p with
  | ok x => rw [hr] at h'; cases h'; exact h _ _ _ _ hr
  | err k => rw [hr] at h'; cases h'
  | panic => rw [hr] at h'; cases h'
  | fuel => rw [hr] at h'; cases h'

theorem Gives.of_forget {α} {m : D α} {Q : α → Prop} (h : ∀ e p a q, D.forget m e F p = .ok (a, q) → Q a) : Gives F Q m := by
  intro e p a q h'
  refine h e p a q ?_
  rw [← D.forget_apply, h']
  rfl

/-! ### Heads -/

/-- What `parse_head` has to say. -/
structure HeadSays (F : Bytes) (S : ErrKind → Str → Prop) : Prop where
  length : S .io "Error reading atom length".toList
  ident : S .io "Error reading atom identifier".toList
  extLength : S .io "Error reading extended atom length".toList
  short (f : Fourcc) (n : Nat) (q : Nat) (hn : n < 8) (h1 : n ≠ 1) (hq : (F.drop q).take 8 = be32 n ++ f.bytes) :
    S .parsing (shortText f n)

theorem be32_beNat {b : Bytes} (h : b.length = 4) : be32 (beNat b) = b := by
  rw [← toBe_four]
  have := toBe_beNat b
  rw [h] at this
  exact this

theorem Says.parseHead (h : HeadSays F S) : Says F S parseHeadD := by
  intro e p k d hk
  unfold parseHeadD at hk
  rw [D.bind_apply] at hk
  cases hm : Mp4.say "Error reading atom length".toList readU32 e F p with
  | err k' d' => rw [hm] at hk; cases hk; exact Says.say (S := S) .readU32 h.length _ _ _ _ hm
  | panic => rw [hm] at hk; cases hk
  | fuel => rw [hm] at hk; cases hk
  | ok x =>
    obtain ⟨len, p1⟩ := x
    rw [hm] at hk
    dsimp only at hk
    rw [D.bind_apply] at hk
    cases hm2 : Mp4.say "Error reading atom identifier".toList (readExact 4) e F p1 with
    | err k' d' => rw [hm2] at hk; cases hk; exact Says.say (S := S) (.readExact _) h.ident _ _ _ _ hm2
    | panic => rw [hm2] at hk; cases hk
    | fuel => rw [hm2] at hk; cases hk
    | ok x =>
      obtain ⟨b, p2⟩ := x
      rw [hm2] at hk
      dsimp only at hk
      have h1 : readU32 e F p = .ok (len, p1) := by
        have := congrArg DOut.forget hm
        rw [D.forget_apply, D.forget_say] at this
        exact this
      have h2 : readExact 4 e F p1 = .ok (b, p2) := by
        have := congrArg DOut.forget hm2
        rw [D.forget_apply, D.forget_say] at this
        exact this
      unfold readU32 at h1
      obtain ⟨b1, p1', h1a, h1b⟩ := P.bind_inv h1
      obtain ⟨rfl, rfl⟩ := P.pure_inv h1b
      obtain ⟨rfl, rfl, l1⟩ := readExact_inv h1a
      obtain ⟨rfl, rfl, l2⟩ := readExact_inv h2
      have l2 : p + 4 + 4 ≤ F.length := by rcases l2 with l | l; · simp at l
                                           · exact l
      split at hk
      · refine Says.bind (F := F) (S := S) (Says.say .readU64 h.extLength) (fun _ => .pure _) _ _ _ _ hk
      · split at hk
        · rename_i hn1 hn8
          have hl1 : ((F.drop p).take 4).length = 4 := by rw [List.length_take, List.length_drop]; omega
          have hl2 : ((F.drop (p + 4)).take 4).length = 4 := by rw [List.length_take, List.length_drop]; omega
          cases hk
          refine h.short _ _ p hn8 hn1 ?_
          rw [be32_beNat hl1, four_bytes hl2]
          have : (F.drop p).take 8 = (F.drop p).take (4 + 4) := rfl
          rw [this, List.take_add, List.drop_drop]
        · cases hk

theorem Gives.parseHead : Gives F (fun h => Named F h.fourcc) parseHeadD := by
  refine .of_forget fun e p h q hh => ?_
  rw [parseHeadD_forget] at hh
  obtain ⟨-, hl, -, hf⟩ := parseHead_inv hh
  have hhl : 8 ≤ h.size.headLen := by unfold Size.headLen; split <;> omega
  have hl : p + h.size.headLen ≤ F.length := hl
  have hl1 : ((F.drop p).take 4).length = 4 := by rw [List.length_take, List.length_drop]; omega
  refine ⟨p, beNat ((F.drop p).take 4), ?_, ?_⟩
  · have := beNat_lt_pow ((F.drop p).take 4)
    rw [hl1] at this
    exact this
  · rw [be32_beNat hl1, ← hf]
    have : (F.drop p).take 8 = (F.drop p).take (4 + 4) := rfl
    rw [this, List.take_add, List.drop_drop]

/-- What `parse_full_head` has to say. -/
structure FullSays (S : ErrKind → Str → Prop) : Prop where
  version : S .io "Error reading version of full atom head".toList
  flags : S .io "Error reading flags of full atom head".toList

theorem Says.parseFullHead (h : FullSays S) : Says F S parseFullHeadD :=
  .bind (.say .readU8 h.version) fun _ => .bind (.say (.readExact _) h.flags) fun _ => .pure _

/-- The version and the flags are in the file. -/
def FullIn (F : Bytes) (x : UInt8 × Bytes) : Prop := x.2.length = 3 ∧ ∃ q, (F.drop q).take 4 = x.1 :: x.2

theorem Gives.parseFullHead : Gives F (FullIn F) parseFullHeadD := by
  refine .of_forget fun e p x q hh => ?_
  rw [parseFullHeadD_forget] at hh
  unfold Mp4.parseFullHead at hh
  obtain ⟨v, q1, h1, hh⟩ := P.bind_inv hh
  obtain ⟨b, q2, h2, hh⟩ := P.bind_inv hh
  obtain ⟨rfl, rfl⟩ := P.pure_inv hh
  unfold readU8 at h1
  obtain ⟨b1, q1', h1a, h1b⟩ := P.bind_inv h1
  obtain ⟨rfl, rfl⟩ := P.pure_inv h1b
  obtain ⟨rfl, rfl, l1⟩ := readExact_inv h1a
  obtain ⟨rfl, rfl, l2⟩ := readExact_inv h2
  have l2 : p + 1 + 3 ≤ F.length := by rcases l2 with l | l; · simp at l
                                       · exact l
  refine ⟨?_, p, ?_⟩
  · show ((F.drop (p + 1)).take 3).length = 3
    rw [List.length_take, List.length_drop]; omega
  · show _ = ((F.drop p).take 1).headD 0 :: (F.drop (p + 1)).take 3
    have : (F.drop p).take 4 = (F.drop p).take (1 + 3) := rfl
    rw [this, List.take_add, List.drop_drop]
    have hlt : p < F.length := by omega
    rw [List.drop_eq_getElem_cons hlt]
    rfl

/-! ### Loops -/

theorem Says.walk {σ} {limit : E Nat} {handle : σ → Head → D σ} (hl : NoErr limit) (hio : S .io []) (hs : HeadSays F S)
    (hh : ∀ s h, Named F h.fourcc → Says F S (handle s h)) : ∀ f s parsed, Says F S (walkD limit handle f s parsed)
  | 0, _, _ => .quiet .outOfFuel hio
  | f+1, s, parsed => .bind (.quiet (.p hl) hio) fun _ => .ite _
      (fun _ => .bindQ (.parseHead hs) .parseHead fun h hn => .bind (hh _ _ hn) fun _ =>
        .bind (.quiet (.p (.addU _ _)) hio) fun _ => Says.walk hl hio hs hh f _ _)
      fun _ => .pure _

theorem Says.loop {σ} {limit : E Nat} {handle : σ → Head → D σ} {s : σ} {parsed : Nat} (hl : NoErr limit) (hio : S .io [])
    (hs : HeadSays F S) (hh : ∀ s h, Named F h.fourcc → Says F S (handle s h)) : Says F S (loopD limit handle s parsed) :=
  .bind (.quiet .getFuel hio) fun _ => .walk hl hio hs hh _ _ _

/-! ### Values -/

theorem Says.readUtf8 {n : Nat} (hio : S .io []) (h : S .utf8StringDecoding "Data is not valid utf-8.".toList) :
    Says F S (readUtf8D n) := by
  refine .bind (.quiet (.readU8Vec _) hio) fun b => ?_
  split
  · exact .pure _
  · exact .fail h

theorem Says.readUtf16 {n : Nat} (hio : S .io []) (h : S .utf16StringDecoding "Data is not valid utf-16.".toList) :
    Says F S (readUtf16D n) := by
  refine .bind (.quiet (.p (.allocU8 _)) hio) fun _ => .bind (.quiet (.readExact _) hio) fun b => ?_
  split
  · exact .pure _
  · exact .fail h

theorem Says.dataParse {t n : Nat} (hio : S .io []) (h8 : S .utf8StringDecoding "Data is not valid utf-8.".toList)
    (h16 : S .utf16StringDecoding "Data is not valid utf-16.".toList)
    (ht : t ∉ knownTypes → S (.unknownDataType t) "Unknown datatype code".toList) : Says F S (Data.parseD t n) := by
  unfold Data.parseD
  split
  · exact .bind (.quiet (.readU8Vec _) hio) fun _ => .pure _
  · exact .bind (.readUtf8 hio h8) fun _ => .pure _
  · exact .bind (.readUtf16 hio h16) fun _ => .pure _
  · exact .bind (.quiet (.readU8Vec _) hio) fun _ => .pure _
  · exact .bind (.quiet (.readU8Vec _) hio) fun _ => .pure _
  · exact .bind (.quiet (.readU8Vec _) hio) fun _ => .pure _
  · exact .bind (.quiet (.readU8Vec _) hio) fun _ => .pure _
  · refine .fail (ht ?_)
    rename_i h0 h1 h2 h3 h4 h5 h6
    intro hm
    simp only [knownTypes, List.mem_cons, List.not_mem_nil, or_false] at hm
    rcases hm with h | h | h | h | h | h | h
    · exact h0 h
    · exact h1 h
    · exact h2 h
    · exact h3 h
    · exact h4 h
    · exact h5 h
    · exact h6 h

/-! ### Places -/

/-- The errors inside the atom at `pre`. -/
def Sub (R : List Fourcc → ErrKind → Str → Prop) (F : Bytes) (pre : List Fourcc) (k : ErrKind) (d : Str) : Prop :=
  ∃ path text, R (pre ++ path) k text ∧ d = whileParsing path text ∧ (∀ f ∈ path, Named F f) ∧ Evidence F k text

variable {R : List Fourcc → ErrKind → Str → Prop} {pre : List Fourcc}

theorem Sub.here {k : ErrKind} {t : Str} (h : R pre k t) (he : Evidence F k t) : Sub R F pre k t :=
  ⟨[], t, by rw [List.append_nil]; exact h, rfl, (fun _ h => by cases h), he⟩

theorem parsing_cons (f : Fourcc) (path : List Fourcc) (text : Str) :
    whileParsing (f :: path) text = parsingText f ++ whileParsing path text := by
  have h : "Error ".toList ++ "parsing".toList ++ " ".toList = "Error parsing ".toList := by decide +kernel
  unfold parsingText
  rw [← h]
  show "Error ".toList ++ "parsing".toList ++ " ".toList ++ f.display ++ ": ".toList ++ inAtoms "parsing".toList path text = _
  unfold whileParsing
  generalize inAtoms "parsing".toList path text = x
  rfl

theorem Says.sub {α} {f : Fourcc} {m : D α} (h : Says F (Sub R F (pre ++ [f])) m) (hn : Named F f) :
    Says F (Sub R F pre) (Mp4.within f m) := by
  refine .within h fun k d hs => ?_
  obtain ⟨path, text, h1, h2, h3, h4⟩ := hs
  refine ⟨f :: path, text, ?_, ?_, ?_, h4⟩
  · rw [List.append_assoc] at h1
    exact h1
  · rw [h2]
    exact (parsing_cons f path text).symm
  · intro g hg
    rcases List.mem_cons.mp hg with rfl | hg
    · exact hn
    · exact h3 g hg

theorem HeadSays.of (h : ∀ k t, HeadFault k t → R pre k t) : HeadSays F (Sub R F pre) where
  length := .here (h _ _ .length) trivial
  ident := .here (h _ _ .ident) trivial
  extLength := .here (h _ _ .extLength) trivial
  short f n q hn h1 hq := .here (h _ _ (.short f n hn h1)) ⟨f, n, q, rfl, hq⟩

theorem FullSays.of (h : ∀ k t, FullFault k t → R pre k t) : FullSays (Sub R F pre) where
  version := .here (h _ _ .version) trivial
  flags := .here (h _ _ .flags) trivial

theorem Says.skipOf {α} {h : Head} {a : α} (hio : R pre .io []) :
    Says F (Sub R F pre) (do Mp4.quiet (Mp4.skipContent h); Pure.pure a) :=
  .bind (.quiet (.skipContent _) (.here hio trivial)) fun _ => .pure _

/-- A loop over the children. -/
theorem Says.childrenOf {σ} {limit : E Nat} {handle : σ → Head → D σ} {s : σ} {parsed : Nat}
    (hio : R pre .io []) (hp : ∀ k t, HeadFault k t → R pre k t) (hl : NoErr limit)
    (hh : ∀ s h, Named F h.fourcc → Says F (Sub R F pre) (handle s h)) : Says F (Sub R F pre) (loopD limit handle s parsed) :=
  .loop hl (.here hio trivial) (.of hp) hh

theorem Says.one {σ α} {f : Fourcc} {m : D α} {upd : α → σ} (hn : Named F f)
    (h : Says F (Sub R F (pre ++ [f])) m) : Says F (Sub R F pre) (do let a ← Mp4.within f m; Pure.pure (upd a)) :=
  .bind (.sub h hn) fun _ => .pure _

/-! ### Reading -/

theorem HeadSays.sub (h : pre ∈ readHeadPaths) : HeadSays F (Sub ReadFault F pre) := .of fun _ _ => .head h

theorem FullSays.sub (h : pre ∈ readFullPaths) : FullSays (Sub ReadFault F pre) := .of fun _ _ => .full h

theorem Sub.io (h : pre = mvhdPath ∨ pre ∈ readHeadPaths) : Sub ReadFault F pre .io [] := .here (.io h) trivial

theorem Says.skip {α} {h : Head} {a : α} (hp : pre ∈ readHeadPaths) :
    Says F (Sub ReadFault F pre) (do Mp4.quiet (Mp4.skipContent h); Pure.pure a) := .skipOf (.io (.inr hp))

/-- A loop over the children in which some kinds of them are parsed and all others are skipped. -/
theorem Says.children {σ} {limit : E Nat} {handle : σ → Head → D σ} {s : σ} {parsed : Nat}
    (hp : pre ∈ readHeadPaths) (hl : NoErr limit)
    (hh : ∀ s h, Named F h.fourcc → Says F (Sub ReadFault F pre) (handle s h)) :
    Says F (Sub ReadFault F pre) (loopD limit handle s parsed) :=
  .childrenOf (.io (.inr hp)) (fun _ _ => .head hp) hl hh

theorem says_mvhd (size : Size) : Says F (Sub ReadFault F mvhdPath) (parseMvhdD size) := by
  have hio : Sub ReadFault F mvhdPath .io [] := .io (.inl rfl)
  have hf : mvhdPath ∈ readFullPaths := by decide +kernel
  refine .bind (.quiet (.findBounds _) hio) fun b => .bindQ (.parseFullHead (.sub hf)) .parseFullHead fun x hx => ?_
  obtain ⟨v, fl⟩ := x
  refine .ite _ (fun _ => .quiet ?_ hio) fun h0 => .ite _ (fun _ => .quiet ?_ hio) fun h1 => .fail ?_
  · exact .bind (.seekCur _) fun _ => .bind .readU32 fun _ => .bind .readU32 fun _ => .bind (.p (.mulU _ _)) fun _ =>
      .bind (.p (.divU _ _)) fun _ => .bind (.seekToEnd _) fun _ => .pure _
  · exact .bind (.seekCur _) fun _ => .bind .readU32 fun _ => .bind .readU64 fun _ => .bind (.p (.mulU _ _)) fun _ =>
      .bind (.p (.divU _ _)) fun _ => .bind (.seekToEnd _) fun _ => .pure _
  · exact .here (.mvhd v h0 h1) ⟨fl, hx⟩

theorem says_mp4a (size : Size) : Says F (Sub ReadFault F mp4aPath) (parseMp4aD size) := by
  have hp : mp4aPath ∈ readHeadPaths := by decide +kernel
  have hf : mp4aPath ∈ readFullPaths := by decide +kernel
  have hio : Sub ReadFault F mp4aPath .io [] := .io (.inr hp)
  refine .bind (.quiet (.findBounds _) hio) fun _ => .bind (.quiet (.seekCur _) hio) fun _ =>
    .bind (.parseHead (.sub hp)) fun h => .ite _ (fun _ => .fail (.here .noEsds ?_)) fun _ =>
    .bind ?_ fun _ => .bind (.quiet (.seekToEnd _) hio) fun _ => .pure _
  · intro h
    exact absurd h (by decide +kernel)
  · refine .bindQ (.parseFullHead (.sub hf)) .parseFullHead fun x hx => ?_
    obtain ⟨v, fl⟩ := x
    refine .ite _ (fun h0 => .fail (.here (.esds v h0) ⟨fl, hx⟩)) fun _ =>
      .bind (.quiet .parseDescHead hio) fun x => ?_
    obtain ⟨tag, hl, dl⟩ := x
    exact .ite _ (fun _ => .fail (.here .noDesc trivial)) fun _ =>
      .bind (.quiet (.p (.contentLen _)) hio) fun _ => .bind (.quiet (.p (.subU _ _)) hio) fun _ =>
      .bind (.quiet (.p (.subU _ _)) hio) fun _ => .quiet (.parseEsDesc _ _) hio

theorem says_stsd (size : Size) : Says F (Sub ReadFault F stsdPath) (parseStsdD size) := by
  have hp : stsdPath ∈ readHeadPaths := by decide +kernel
  have hf : stsdPath ∈ readFullPaths := by decide +kernel
  have hio : Sub ReadFault F stsdPath .io [] := .io (.inr hp)
  refine .bindQ (.parseFullHead (.sub hf)) .parseFullHead fun x hx => ?_
  obtain ⟨v, fl⟩ := x
  exact .ite _ (fun h0 => .fail (.here (.stsd v h0) ⟨fl, hx⟩)) fun _ => .bind (.quiet (.seekCur _) hio) fun _ =>
    .children hp (.contentLen _) fun s h hn => .ite _ (fun hf => .one (hf ▸ hn) (says_mp4a _)) fun _ => .skip hp

theorem says_stbl (size : Size) : Says F (Sub ReadFault F stblPath) (parseStblD size) := by
  have hp : stblPath ∈ readHeadPaths := by decide +kernel
  exact .children hp (.contentLen _) fun s h hn => .ite _ (fun hf => .one (hf ▸ hn) (says_stsd _)) fun _ => .skip hp

theorem says_minf (size : Size) : Says F (Sub ReadFault F minfPath) (parseMinfD size) := by
  have hp : minfPath ∈ readHeadPaths := by decide +kernel
  exact .children hp (.contentLen _) fun s h hn => .ite _ (fun hf => .one (hf ▸ hn) (says_stbl _)) fun _ => .skip hp

theorem says_mdia (size : Size) : Says F (Sub ReadFault F mdiaPath) (parseMdiaD size) := by
  have hp : mdiaPath ∈ readHeadPaths := by decide +kernel
  exact .children hp (.contentLen _) fun s h hn => .ite _ (fun hf => .one (hf ▸ hn) (says_minf _)) fun _ => .skip hp

theorem says_trak (size : Size) : Says F (Sub ReadFault F trakPath) (parseTrakD size) := by
  have hp : trakPath ∈ readHeadPaths := by decide +kernel
  exact .children hp (.contentLen _) fun s h hn => .ite _ (fun hf => .one (hf ▸ hn) (says_mdia _)) fun _ => .skip hp

theorem says_itemHandle (s : ItemSt) (h : Head) : Says F (Sub ReadFault F ilstPath) (itemHandleD s h) := by
  have hp : ilstPath ∈ readHeadPaths := by decide +kernel
  have hf : ilstPath ∈ readFullPaths := by decide +kernel
  have hio : Sub ReadFault F ilstPath .io [] := .io (.inr hp)
  have h8 : Sub ReadFault F ilstPath .utf8StringDecoding "Data is not valid utf-8.".toList := .here (.utf8 (.inr rfl)) trivial
  have h16 : Sub ReadFault F ilstPath .utf16StringDecoding "Data is not valid utf-16.".toList := .here .utf16 trivial
  refine .ite _ (fun _ => ?_) fun _ => .ite _ (fun _ => ?_) fun _ => .ite _ (fun _ => ?_) fun _ => .skip hp
  · refine .bindQ (.parseFullHead (.sub hf)) .parseFullHead fun x hx => ?_
    obtain ⟨v, fl⟩ := x
    refine .ite _ (fun h0 => .fail (.here (.item v h0) ⟨fl, hx⟩)) fun h0 => .bind (.quiet (.seekCur _) hio) fun _ =>
      .bind (.quiet (.p (.contentLen _)) hio) fun _ => .bind (.quiet (.p (.subU _ _)) hio) fun _ =>
      .bind (.dataParse hio h8 h16 fun ht => ?_) fun _ => .pure _
    obtain ⟨hl, q, hq⟩ := hx
    have hl : fl.length = 3 := hl
    have hb := beNat_lt_pow fl
    rw [hl] at hb
    refine .here (.dataType _ hb ht) ⟨q, ?_⟩
    rw [hq]
    have h0 : v = 0 := Classical.not_not.mp h0
    subst h0
    show (0 : UInt8) :: fl = _
    have : beNat fl = beNat (0 :: fl) := by rw [beNat_cons]; simp
    rw [this, be32_beNat (by rw [List.length_cons, hl])]
  · refine .bindQ (.parseFullHead (.sub hf)) .parseFullHead fun x hx => ?_
    obtain ⟨v, fl⟩ := x
    exact .ite _ (fun h0 => .fail (.here (.item v h0) ⟨fl, hx⟩)) fun h0 =>
      .bind (.quiet (.p (.contentLen _)) hio) fun _ => .bind (.quiet (.p (.subU _ _)) hio) fun _ =>
      .bind (.readUtf8 hio h8) fun _ => .pure _
  · refine .bindQ (.parseFullHead (.sub hf)) .parseFullHead fun x hx => ?_
    obtain ⟨v, fl⟩ := x
    exact .ite _ (fun h0 => .fail (.here (.item v h0) ⟨fl, hx⟩)) fun h0 =>
      .bind (.quiet (.p (.contentLen _)) hio) fun _ => .bind (.quiet (.p (.subU _ _)) hio) fun _ =>
      .bind (.readUtf8 hio h8) fun _ => .pure _

theorem says_item (parent : Fourcc) (len : Nat) (hn : Named F parent) (hf : parent ≠ FREE) :
    Says F (Sub ReadFault F ilstPath) (parseItemD parent len) := by
  have hp : ilstPath ∈ readHeadPaths := by decide +kernel
  refine .bind (.children hp (.pure _) fun s h _ => says_itemHandle s h) fun s => .ite _
    (fun _ => .fail (.here (.noData parent hf) fun _ => ⟨parent, rfl, hn⟩)) fun _ => .pure _

theorem says_ilst (size : Size) : Says F (Sub ReadFault F ilstPath) (parseIlstD size) := by
  have hp : ilstPath ∈ readHeadPaths := by decide +kernel
  exact .children hp (.contentLen _) fun s h hn => .ite _ (fun _ => .skip hp) fun hf =>
    .bind (.quiet (.p (.contentLen _)) (.io (.inr hp))) fun _ => .bind (says_item _ _ hn hf) fun _ => .pure _

theorem says_meta (size : Size) : Says F (Sub ReadFault F metaPath) (parseMetaD size) := by
  have hp : metaPath ∈ readHeadPaths := by decide +kernel
  have hf : metaPath ∈ readFullPaths := by decide +kernel
  refine .bindQ (.parseFullHead (.sub hf)) .parseFullHead fun x hx => ?_
  obtain ⟨v, fl⟩ := x
  exact .ite _ (fun h0 => .fail (.here (.metaVersion v h0) ⟨fl, hx⟩)) fun _ =>
    .children hp (.contentLen _) fun s h hn => .ite _ (fun hf => .one (hf ▸ hn) (says_ilst _)) fun _ => .skip hp

theorem says_udta (size : Size) : Says F (Sub ReadFault F udtaPath) (parseUdtaD size) := by
  have hp : udtaPath ∈ readHeadPaths := by decide +kernel
  exact .children hp (.contentLen _) fun s h hn => .ite _ (fun hf => .one (hf ▸ hn) (says_meta _)) fun _ => .skip hp

theorem says_moov (size : Size) : Says F (Sub ReadFault F moovPath) (parseMoovD size) := by
  have hp : moovPath ∈ readHeadPaths := by decide +kernel
  exact .children hp (.contentLen _) fun s h hn => .ite _ (fun hf => .one (hf ▸ hn) (says_mvhd _)) fun _ =>
    .ite _ (fun hf => .one (hf ▸ hn) (says_trak _)) fun _ =>
    .ite _ (fun hf => .one (hf ▸ hn) (says_udta _)) fun _ => .skip hp

theorem says_ftyp : Says F (Sub ReadFault F []) parseFtypD := by
  have hp : [] ∈ readHeadPaths := by decide +kernel
  have hio : Sub ReadFault F [] .io [] := .io (.inr hp)
  exact .bind (.parseHead (.sub hp)) fun h => .ite _ (fun _ => .fail (.here .noTag trivial)) fun _ =>
    .bind (.quiet (.p (.contentLen _)) hio) fun _ => .readUtf8 hio (.here (.utf8 (.inl rfl)) trivial)

theorem says_topWalk (len : Nat) : ∀ f parsed, Says F (Sub ReadFault F []) (topWalkD len f parsed)
  | 0, _ => .quiet .outOfFuel (.io (.inr (by decide +kernel)))
  | f+1, parsed => by
    have hp : [] ∈ readHeadPaths := by decide +kernel
    have hio : Sub ReadFault F [] .io [] := .io (.inr hp)
    refine .ite _ (fun _ => .fail (.here .noMovie ?_)) fun _ => .bindQ (.parseHead (.sub hp)) .parseHead fun h hn => .ite _
      (fun hf => .sub (says_moov _) (hf ▸ hn)) fun _ => .bind (.quiet (.skipContent _) hio) fun _ =>
      .bind (.quiet (.p (.addU _ _)) hio) fun _ => says_topWalk len f _
    intro h
    exact absurd h (by decide +kernel)

theorem says_readTag : Says F (Explains F) readTagD := by
  have hp : [] ∈ readHeadPaths := by decide +kernel
  have hio : Sub ReadFault F [] .io [] := .io (.inr hp)
  exact Says.mono (S := Sub ReadFault F []) (.bind says_ftyp fun _ => .bind (.quiet .remainingStreamLen hio) fun _ =>
    .bind (.quiet .getFuel hio) fun _ => .bind (says_topWalk _ _ _) fun _ => .pure _) fun k d h => h

end Mp4
