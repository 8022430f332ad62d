import Verif.Proof.SaysReader
import Verif.Props.Describe
import Verif.Props.Reader
/-
C92: what the errors of a failing reader say.
-/
namespace Mp4.Props
open Mp4 Spec

/-! ### Reading -/

/-- **C92.** The descriptions are added to the errors of reading from an arbitrary reader (`readTagVia`); nothing else changes. -/
theorem C92_refines (c : Sched) (e : Env) (F : Bytes) (pos : Nat) :
    ((readTagViaD c e F pos).1.forget, (readTagViaD c e F pos).2) = readTagVia c e F pos := by
  unfold readTagVia
  rw [← readTagRD_forget]
  rfl

/-- **C92.** Unless the reader reports an error, also the description is that of reading from memory. -/
theorem C92_same (c : Sched) (e : Env) (F : Bytes) (pos : Nat) (h : (readTagViaD c e F pos).2.hit = false) (hE : Spec.Enough c e F) :
    match readTagD e F pos with
    | .ok (t, q) => (readTagViaD c e F pos).1 = .ok t ∧ (readTagViaD c e F pos).2.pos = q
    | .err k d => (readTagViaD c e F pos).1 = .err k d
    | .panic => (readTagViaD c e F pos).1 = .panic
    | .fuel => (readTagViaD c e F pos).1 = .fuel := by
  have hr := (rd_readTag.run { pos := pos } rfl : RDRes c e F _ _ _)
  unfold readTagViaD at h ⊢
  dsimp only at hr
  generalize readTagRD c e F { pos := pos } = x at h hr ⊢
  rcases hr with ⟨-, h'⟩ | ⟨h', -⟩ | ⟨-, -, h'⟩
  · cases hm : readTagD e F pos <;> rw [hm] at h' <;> exact h'
  · exact absurd (h'.symm.trans h) (by decide)
  · exact absurd hE h'

/-- **C92.** Whatever the reader does in each call: every error, also one that the reader reports, is one of the catalogue of C83. It
names the atoms it occurred in, from the outermost one on, and they are in the content. -/
theorem C92_explains (c : Sched) (e : Env) (F : Bytes) (pos : Nat) (k : ErrKind) (d : Str) (h : (readTagViaD c e F pos).1 = .err k d) :
    Explains F k d := by
  have hr := (rd_readTag.run { pos := pos } rfl : RDRes c e F _ _ _)
  unfold readTagViaD at h
  dsimp only at hr
  generalize readTagRD c e F { pos := pos } = x at h hr
  obtain ⟨o, s⟩ := x
  change o = _ at h
  subst h
  rcases hr with ⟨-, h'⟩ | ⟨-, d', h', hs⟩ | ⟨-, h', -⟩
  · cases hm : readTagD e F pos with
    | ok x => rw [hm] at h'; cases h'.1
    | err k' d' =>
      rw [hm] at h'
      cases (h' : DOut.err k d = _)
      exact says_readTag e pos k d hm
    | panic => rw [hm] at h'; cases (h' : DOut.err k d = _)
    | fuel => rw [hm] at h'; cases (h' : DOut.err k d = _)
  · cases (h' : DOut.err k d = _)
    exact hs
  · cases (h' : DOut.err k d = _)

/-! ### Writing -/

/-- **C92.** The descriptions are added to the errors of writing with failing calls, also during the search (`writeTagVia`); nothing
else changes. -/
theorem C92_write_refines (c : Sched) (calls : Nat → Option Nat) (e : Env) (F : Bytes) (pos : Nat) (atoms : List AtomData) :
    ((writeTagViaD c calls e F pos atoms).1.forget, (writeTagViaD c calls e F pos atoms).2) = writeTagVia c calls e F pos atoms := by
  have h := congrFun (congrFun (congrFun (congrFun (preparePhaseRD_forget atoms) c) e) F) { pos := pos }
  simp only [RD.forget] at h
  simp only [writeTagViaD, writeTagVia, ← h]
  rcases preparePhaseRD atoms c e F { pos := pos } with ⟨o, r⟩
  cases o with
  | ok x =>
    obtain ⟨a, b, p, l, m⟩ := x
    have h2 := congrFun (congrFun (congrFun (fdWritePhase_forget a b p l m atoms) ⟨calls, false⟩) e) { file := F, cur := e.rcur 0 }
    simp only [FD.forget] at h2
    simp only [DOut.forget, ← h2]
  | err k d => rfl
  | panic => rfl
  | fuel => rfl

/-- **C92.** So every error of writing, whichever calls fail, is described as C84 says. -/
theorem C92_write_explains (c : Sched) (calls : Nat → Option Nat) (e : Env) (hc : 128 ≤ e.cap) (F : Bytes) (pos : Nat)
    (atoms : List AtomData) (k : ErrKind) (d : Str) (h : (writeTagViaD c calls e F pos atoms).1 = .err k d) : SaveExplains F k d := by
  unfold writeTagViaD at h
  have hr := ((rd_prepare atoms).run { pos := pos } rfl : RDRes c e F _ _ _)
  dsimp only at h hr
  generalize preparePhaseRD atoms c e F { pos := pos } = x at h hr
  obtain ⟨o, r⟩ := x
  rcases hr with ⟨-, h'⟩ | ⟨-, d', h', path, text, h1, h2, h3, h4⟩ | ⟨-, h', -⟩
  · cases hp : preparePhaseD atoms e F pos with
    | ok x =>
      obtain ⟨⟨a, b, p, l, m⟩, q⟩ := x
      rw [hp] at h'
      obtain ⟨h', -⟩ := h'
      dsimp only at h'
      subst h'
      dsimp only at h
      generalize hw : fdWritePhase _ _ _ _ _ _ _ _ _ = w at h
      exact says_writePhase _ _ _ _ _ _ (gives_prepare atoms _ _ _ _ hp) (prepare_hdlr hp) hc _ _ _ _ w.2 (hw.trans (Prod.ext h rfl))
    | err k' d' =>
      rw [hp] at h'
      change o = _ at h'
      subst h'
      cases h
      obtain ⟨path, text, h1, h2, h3, h4⟩ := says_prepare atoms _ _ _ _ hp
      exact .search path text h1 h2 h3 h4
    | panic => rw [hp] at h'; change o = _ at h'; subst h'; cases h
    | fuel => rw [hp] at h'; change o = _ at h'; subst h'; cases h
  · change o = _ at h'
    subst h'
    cases h
    exact .search path text h1 h2 h3 h4
  · change o = _ at h'
    subst h'
    cases h

/-- **C92.** An error the reader reports during the search names the atom that was searched, not one that would be written. -/
theorem C92_search_explains (c : Sched) (calls : Nat → Option Nat) (e : Env) (F : Bytes) (pos : Nat) (atoms : List AtomData)
    (h : (writeTagViaD c calls e F pos atoms).2.2.hit = true) :
    (writeTagViaD c calls e F pos atoms).2.1.file = F ∧
    ∃ path text, FindFault path .io text ∧ (writeTagViaD c calls e F pos atoms).1 = .err .io (whileParsing path text) ∧
      ∀ f ∈ path, Named F f := by
  unfold writeTagViaD at h ⊢
  have hr := ((rd_prepare atoms).run { pos := pos } rfl : RDRes c e F _ _ _)
  dsimp only at h hr ⊢
  generalize preparePhaseRD atoms c e F { pos := pos } = x at h hr ⊢
  obtain ⟨o, r⟩ := x
  have hh : r.hit = true := by rcases o with ⟨a, b, p, l, m⟩ | _ | _ | _ <;> exact h
  rcases hr with ⟨h', -⟩ | ⟨-, d', h', path, text, h1, h2, h3, h4⟩ | ⟨h', -⟩
  · exact absurd (hh.symm.trans h') (by decide)
  · change o = _ at h'
    subst h'
    exact ⟨rfl, path, text, h1, by rw [h2], h3⟩
  · exact absurd (hh.symm.trans h') (by decide)

/-! ### Each of the errors occurs -/

/-- An atom with a 64 bit size. -/
def xbox (f : Fourcc) (c : Bytes) : Bytes := be32 1 ++ f.bytes ++ be64 (c.length + 16) ++ c

/-- An atom that is skipped. -/
def xfree : Bytes := xbox (cc 'f' 'r' 'e' 'e') []

/-- A file in which all atoms have 64 bit sizes, with all atoms that are read or searched. -/
def richFile : Bytes :=
  xbox (cc 'f' 't' 'y' 'p') [0x4d, 0x34, 0x41, 0x20] ++ xbox (cc 'm' 'd' 'a' 't') [] ++
  xbox (cc 'm' 'o' 'o' 'v') (xfree ++
    xbox (cc 'm' 'v' 'h' 'd') (be32 0 ++ be64 0 ++ be32 1 ++ be32 1) ++
    xbox (cc 't' 'r' 'a' 'k') (xfree ++ xbox (cc 'm' 'd' 'i' 'a') (xfree ++ xbox (cc 'm' 'i' 'n' 'f') (xfree ++ xbox (cc 's' 't' 'b' 'l') (xfree ++
      xbox (cc 's' 't' 's' 'd') (be32 0 ++ be32 1 ++
        xbox (cc 'm' 'p' '4' 'a') (List.replicate 28 0 ++ xbox (cc 'e' 's' 'd' 's') (be32 0 ++ [3, 3, 0, 0, 0]))) ++
      xbox (cc 's' 't' 'c' 'o') (be64 0) ++ xbox (cc 'c' 'o' '6' '4') (be64 0))))) ++
    xbox (cc 'u' 'd' 't' 'a') (xfree ++ xbox (cc 'm' 'e' 't' 'a') (be32 0 ++ xbox (cc 'h' 'd' 'l' 'r') [] ++
      xbox (cc 'i' 'l' 's' 't') (xbox (cc 'd' 'e' 's' 'c') (xbox (cc 'd' 'a' 't' 'a') (be32 1 ++ be32 0 ++ [0x61]))))))

/-- A reader that returns all that is asked for and fails in one call. -/
def failsAt (n : Nat) : Sched := fun k => if k = n then .err else .give 10000

/-- Calls during reading, and what the error says if they fail. -/
def readFailures : List (Nat × List Fourcc × String) :=
  [(0, [], "Error reading atom length"), (1, [], "Error reading atom identifier"), (2, [], "Error reading extended atom length"),
   (14, moovPath, "Error reading atom length"), (15, moovPath, "Error reading atom identifier"),
   (16, moovPath, "Error reading extended atom length"), (32, trakPath, "Error reading atom length"),
   (33, trakPath, "Error reading atom identifier"), (34, trakPath, "Error reading extended atom length"),
   (39, mdiaPath, "Error reading atom length"), (40, mdiaPath, "Error reading atom identifier"),
   (41, mdiaPath, "Error reading extended atom length"), (46, minfPath, "Error reading atom length"),
   (47, minfPath, "Error reading atom identifier"), (48, minfPath, "Error reading extended atom length"),
   (53, stblPath, "Error reading atom length"), (54, stblPath, "Error reading atom identifier"),
   (55, stblPath, "Error reading extended atom length"), (63, stsdPath, "Error reading atom length"),
   (64, stsdPath, "Error reading atom identifier"), (65, stsdPath, "Error reading extended atom length"),
   (68, mp4aPath, "Error reading atom length"), (69, mp4aPath, "Error reading atom identifier"),
   (70, mp4aPath, "Error reading extended atom length"), (89, udtaPath, "Error reading atom length"),
   (90, udtaPath, "Error reading atom identifier"), (91, udtaPath, "Error reading extended atom length"),
   (98, metaPath, "Error reading atom length"), (99, metaPath, "Error reading atom identifier"),
   (100, metaPath, "Error reading extended atom length"), (105, ilstPath, "Error reading atom length"),
   (106, ilstPath, "Error reading atom identifier"), (107, ilstPath, "Error reading extended atom length"),
   (22, mvhdPath, "Error reading version of full atom head"), (23, mvhdPath, "Error reading flags of full atom head"),
   (60, stsdPath, "Error reading version of full atom head"), (61, stsdPath, "Error reading flags of full atom head"),
   (71, mp4aPath, "Error reading version of full atom head"), (72, mp4aPath, "Error reading flags of full atom head"),
   (96, metaPath, "Error reading version of full atom head"), (97, metaPath, "Error reading flags of full atom head"),
   (111, ilstPath, "Error reading version of full atom head"), (112, ilstPath, "Error reading flags of full atom head"),
   (21, mvhdPath, ""), (3, [], ""), (17, moovPath, ""), (35, trakPath, ""), (42, mdiaPath, ""), (49, minfPath, ""),
   (56, stblPath, ""), (62, stsdPath, ""), (66, mp4aPath, ""), (92, udtaPath, ""), (101, metaPath, ""), (113, ilstPath, "")]

theorem readFailures_run : ∀ b, ∀ x ∈ readFailures, (readTagViaD (failsAt x.1) { env0 with checked := b } richFile 0).1 =
    .err .io (whileParsing x.2.1 x.2.2.toList) := by decide +kernel

/-- Calls during the search, and what the error says if they fail. -/
def findFailures : List (Nat × List Fourcc × String) :=
  [(0, [], "Error reading atom length"), (1, [], "Error reading atom identifier"), (2, [], "Error reading extended atom length"),
   (17, moovPath, "Error reading atom length"), (18, moovPath, "Error reading atom identifier"),
   (19, moovPath, "Error reading extended atom length"), (29, trakPath, "Error reading atom length"),
   (30, trakPath, "Error reading atom identifier"), (31, trakPath, "Error reading extended atom length"),
   (37, mdiaPath, "Error reading atom length"), (38, mdiaPath, "Error reading atom identifier"),
   (39, mdiaPath, "Error reading extended atom length"), (45, minfPath, "Error reading atom length"),
   (46, minfPath, "Error reading atom identifier"), (47, minfPath, "Error reading extended atom length"),
   (53, stblPath, "Error reading atom length"), (54, stblPath, "Error reading atom identifier"),
   (55, stblPath, "Error reading extended atom length"), (77, udtaPath, "Error reading atom length"),
   (78, udtaPath, "Error reading atom identifier"), (79, udtaPath, "Error reading extended atom length"),
   (87, metaPath, "Error reading atom length"), (88, metaPath, "Error reading atom identifier"),
   (89, metaPath, "Error reading extended atom length"), (85, metaPath, "Error reading version of full atom head"),
   (86, metaPath, "Error reading flags of full atom head"), (3, [], ""), (16, moovPath, ""), (28, trakPath, ""),
   (36, mdiaPath, ""), (44, minfPath, ""), (52, stblPath, ""), (76, udtaPath, ""), (84, metaPath, ""), (64, stcoPath, ""),
   (70, co64Path, ""), (90, hdlrPath, ""), (96, ilstPath, ""), (10, mdatPath, "")]

theorem findFailures_run : ∀ b, ∀ x ∈ findFailures,
    (writeTagViaD (failsAt x.1) (fun _ => none) { env0 with checked := b } richFile 0 []).1 =
    .err .io (whileParsing x.2.1 x.2.2.toList) := by decide +kernel

theorem readFailures_has (b : Bool) {p : List Fourcc} {t : String} (h : (p, t) ∈ readFailures.map (·.2)) :
    ∃ n, (readTagViaD (failsAt n) { env0 with checked := b } richFile 0).1 = .err .io (whileParsing p t.toList) := by
  obtain ⟨x, hx, he⟩ := List.mem_map.mp h
  have hr := readFailures_run b x hx
  rw [he] at hr
  exact ⟨x.1, hr⟩

theorem findFailures_has (b : Bool) {p : List Fourcc} {t : String} (h : (p, t) ∈ findFailures.map (·.2)) :
    ∃ n, (writeTagViaD (failsAt n) (fun _ => none) { env0 with checked := b } richFile 0 []).1 = .err .io (whileParsing p t.toList) := by
  obtain ⟨x, hx, he⟩ := List.mem_map.mp h
  have hr := findFailures_run b x hx
  rw [he] at hr
  exact ⟨x.1, hr⟩

/-- **C92.** Every error of the catalogue of C83 that a reader can report is reported for one and the same file, which can be read
otherwise: there is a call with which reading fails like this. -/
theorem C92_occurs (b : Bool) {path : List Fourcc} {text : Str} (h : ReadFault path .io text) :
    ∃ n, (readTagViaD (failsAt n) { env0 with checked := b } richFile 0).1 = .err .io (whileParsing path text) := by
  cases h with
  | head hp h =>
    cases h with
    | length => exact readFailures_has b ((by decide +kernel : ∀ p ∈ readHeadPaths, (p, "Error reading atom length") ∈ readFailures.map (·.2)) _ hp)
    | ident => exact readFailures_has b ((by decide +kernel : ∀ p ∈ readHeadPaths, (p, "Error reading atom identifier") ∈ readFailures.map (·.2)) _ hp)
    | extLength =>
      exact readFailures_has b ((by decide +kernel : ∀ p ∈ readHeadPaths, (p, "Error reading extended atom length") ∈ readFailures.map (·.2)) _ hp)
  | full hp h =>
    cases h with
    | version =>
      exact readFailures_has b ((by decide +kernel : ∀ p ∈ readFullPaths, (p, "Error reading version of full atom head") ∈ readFailures.map (·.2)) _ hp)
    | flags =>
      exact readFailures_has b ((by decide +kernel : ∀ p ∈ readFullPaths, (p, "Error reading flags of full atom head") ∈ readFailures.map (·.2)) _ hp)
  | io hp =>
    have hm : path ∈ mvhdPath :: readHeadPaths := by simpa using hp
    exact readFailures_has b (t := "") ((by decide +kernel : ∀ p ∈ mvhdPath :: readHeadPaths, (p, "") ∈ readFailures.map (·.2)) _ hm)

/-- **C92.** So is every error of the search that a reader can report. -/
theorem C92_occurs_search (b : Bool) {path : List Fourcc} {text : Str} (h : FindFault path .io text) :
    ∃ n, (writeTagViaD (failsAt n) (fun _ => none) { env0 with checked := b } richFile 0 []).1 = .err .io (whileParsing path text) := by
  cases h with
  | head hp h =>
    cases h with
    | length => exact findFailures_has b ((by decide +kernel : ∀ p ∈ findHeadPaths, (p, "Error reading atom length") ∈ findFailures.map (·.2)) _ hp)
    | ident => exact findFailures_has b ((by decide +kernel : ∀ p ∈ findHeadPaths, (p, "Error reading atom identifier") ∈ findFailures.map (·.2)) _ hp)
    | extLength =>
      exact findFailures_has b ((by decide +kernel : ∀ p ∈ findHeadPaths, (p, "Error reading extended atom length") ∈ findFailures.map (·.2)) _ hp)
  | full h =>
    cases h with
    | version => exact findFailures_has b (p := metaPath) (t := "Error reading version of full atom head") (by decide +kernel)
    | flags => exact findFailures_has b (p := metaPath) (t := "Error reading flags of full atom head") (by decide +kernel)
  | io hp =>
    have hm : path ∈ findHeadPaths ++ findLeafPaths := by simpa using hp
    exact findFailures_has b (t := "") ((by decide +kernel : ∀ p ∈ findHeadPaths ++ findLeafPaths, (p, "") ∈ findFailures.map (·.2)) _ hm)

/-- The file of these examples can be read, with one item. -/
example : (match (readTagViaD (fun _ => .give 3) env0 richFile 0).1 with | .ok t => some t.atoms.length | _ => none) = some 1 := by
  decide +kernel

/-- It can be written too, also if the first call is interrupted. -/
example : (writeTagViaD (fun n => if n = 0 then .intr else .give 10000) (fun _ => none) env0 richFile 0 []).1 = .ok () := by decide +kernel

/-- What is printed for a reader that fails in the movie header. -/
example : (readTagViaD (failsAt 24) env0 richFile 0).1 = .err .io "Error parsing moov: Error parsing mvhd: ".toList := by decide +kernel

end Mp4.Props
