import Verif.Proof.Example
import Verif.Model.Display
import Verif.Props.Path
import Verif.Props.WriteMore
/-
C101: the program examples/string_encoding.rs.
-/
namespace Mp4.Props
open Mp4 Mp4.Spec

/-- Saving to `f` is possible as far as sizes are concerned: the conditions of C41, without the condition that there is no UTF-16
text. -/
structure Roomy (e : Env) (f : File) (atoms : List AtomData) : Prop where
  wf : f.WF
  fit : Fit e f.ser
  items : ∀ a ∈ atoms, (entryOf a).box.Fits
  old : f.ser.length < 2^62
  new : (f.put atoms).ser.length < 2^62
  pos : (f.put atoms).ser.length ≤ e.maxPos
  tables : f.MediaBehind → f.moov.Tables
  fits : f.PutFits atoms
  fit' : Fit e (f.put atoms).ser

theorem Roomy.writable {e f t u} (h : Roomy e f u.atoms) (hu : Reencoded t u) : Writable e [] f u.atoms where
  wf := h.wf
  fit := h.fit
  store := by
    intro a ha
    refine ⟨?_, h.items a ha⟩
    intro d hd
    rw [reencoded_eq hu] at ha
    have := reencode_noUtf16 t a ha d hd
    cases d <;> first | trivial | exact absurd rfl (this _)
  old := h.old
  new := h.new
  pos := h.pos
  tables := h.tables

/-- **C101.** What the loop of the program does with the tag is the specified re-encoding, and nothing else is. -/
theorem C101_tag (t u : Tag) : Reencoded t u ↔ u = reencode t :=
  ⟨reencoded_eq, fun h => h ▸ reencoded t⟩

/-- **C101.** No UTF-16 text is left, and a tag without is not changed. -/
theorem C101_utf16 (t : Tag) : (∀ a ∈ (reencode t).atoms, ∀ d ∈ a.data, ∀ s, d ≠ .utf16 s) ∧
    ((∀ a ∈ t.atoms, ∀ d ∈ a.data, ∀ s, d ≠ .utf16 s) ↔ reencode t = t) :=
  ⟨reencode_noUtf16 t, reencode_same, fun h => h ▸ reencode_noUtf16 t⟩

/-- **C101.** The functions that get texts, bytes and images return what they did before, for every identifier. -/
theorem C101_getters (t u : Tag) (h : Reencoded t u) (i : Ident) :
    u.stringsOf i = t.stringsOf i ∧ u.bytesOf i = t.bytesOf i ∧ u.imagesOf i = t.imagesOf i := by
  rw [reencoded_eq h]; exact reencode_of t i

theorem readFromPath_eq {e : Env} {fs : Fs} {p : String} {n : Nat} (hn : fs.node p = some n) (hr : fs.readable n = true) :
    readFromPath e fs p = readTag e (fs.data n) 0 := by
  rw [readFromPath, hn]; dsimp only; rw [if_pos hr]

theorem writeToPath_eq {e : Env} {fs : Fs} {p : String} {n : Nat} {t : Tag} (hn : fs.node p = some n) (hr : fs.readable n = true)
    (hw : fs.writable n = true) :
    writeToPath e fs p t = ((writeTag e (fs.data n) 0 t).1, fs.store n (writeTag e (fs.data n) 0 t).2) := by
  rw [writeToPath, hn]; dsimp only; rw [hr, hw]; rfl

theorem reencodeMain_eq {e : Env} {fs : Fs} {p : String} {n : Nat} {t : Tag} {F : Bytes} (hn : fs.node p = some n)
    (hr : fs.readable n = true) (hw : fs.writable n = true) (ht : readTag e (fs.data n) 0 = .ok t)
    (hF : writeTag e (fs.data n) 0 (reencode t) = (.ok (), F)) : reencodeMain e fs p = (.ok (), fs.store n F) := by
  rw [reencodeMain, readFromPath_eq hn hr, ht]
  show ((writeToPath e fs p (reencode t)).1.expect, (writeToPath e fs p (reencode t)).2) = _
  rw [writeToPath_eq hn hr hw, hF]
  rfl

/-- **C101.** Run on a well-formed file that it may read and write, the program succeeds. The file is the same with the re-encoded
items in place of the old ones (the media, the other atoms and the meaning of the chunk offsets are described by `File.put`, C41 to
C45), and reading it returns the tag with all texts in UTF-8. No other file changes. -/
theorem C101_save (e : Env) (fs : Fs) (p : String) (n : Nat) (f : File) (t u : Tag) (hn : fs.node p = some n)
    (hr : fs.readable n = true) (hw : fs.writable n = true) (hd : fs.data n = f.ser) (hc : f.Content t) (hu : Reencoded t u)
    (h : Roomy e f u.atoms) :
    ∃ fs', reencodeMain e fs p = (.ok (), fs') ∧ readFromPath e fs p = .ok t ∧ readFromPath e fs' p = .ok u ∧
      fs'.data n = (f.put u.atoms).ser ∧ fs'.node = fs.node ∧ ∀ m, m ≠ n → fs'.data m = fs.data m := by
  have hwr := h.writable hu
  have h1 : readTag e f.ser 0 = .ok t := by
    simpa using read_spec (X := []) (Y := []) (e := e) (by simpa using h.fit) h.wf hc
  have hv : ∀ a ∈ u.atoms, Visible a := by rw [reencoded_eq hu]; exact reencode_visible (readTag_visible h1)
  have hnd : u.NoDup := by rw [reencoded_eq hu]; exact reencode_noDup (readTag_noDup h1)
  obtain ⟨F, h2, h3⟩ := C41_write_read e [] f t u hwr h.fits h.fit' hv hnd hc
  have h4 : F = (f.put u.atoms).ser := by
    obtain ⟨s, h5, h6, -⟩ := hwr.run
    rw [writeTag, h5] at h2
    rw [← (Prod.mk.inj h2).2, h6]; rfl
  have h2' : writeTag e (fs.data n) 0 (reencode t) = (.ok (), F) := by rw [hd, ← reencoded_eq hu]; exact h2
  refine ⟨_, reencodeMain_eq hn hr hw (by rw [hd]; exact h1) h2', by rw [readFromPath_eq hn hr, hd]; exact h1, ?_, ?_, rfl, ?_⟩
  · rw [readFromPath_eq (fs := fs.store n F) (n := n) hn hr]
    show readTag e (if n = n then F else _) 0 = _
    rw [if_pos rfl, show (0 : Nat) = ([] : Bytes).length from rfl, h3, ← hu.ftyp, ← hu.info]
  · show (if n = n then F else _) = _
    rw [if_pos rfl, h4]
  · intro m hm
    show (if m = n then F else _) = _
    rw [if_neg hm]

/-- **C101.** Running the program again changes nothing, not a byte. (64 bit chunk offsets stay below 2^62.) -/
theorem C101_twice (e : Env) (fs : Fs) (p : String) (n : Nat) (f : File) (t u : Tag) (hn : fs.node p = some n)
    (hr : fs.readable n = true) (hw : fs.writable n = true) (hd : fs.data n = f.ser) (hc : f.Content t) (hu : Reencoded t u)
    (h : Roomy e f u.atoms) (hi : f.MediaBehind → f.moov.InRange (f.growth u.atoms)) :
    ∃ fs', reencodeMain e fs p = (.ok (), fs') ∧ reencodeMain e fs' p = (.ok (), fs') := by
  obtain ⟨fs', h1, -, h3, h4, h5, -⟩ := C101_save e fs p n f t u hn hr hw hd hc hu h
  refine ⟨fs', h1, ?_⟩
  have hwr := h.writable hu
  have hre : Rewritable e [] f u.atoms := { toWritable := hwr, fits := h.fits, fit' := h.fit', range := hi }
  have hsf : SameForm u.atoms u.atoms := ⟨Iff.rfl, Iff.rfl⟩
  obtain ⟨s, h6, h7, -⟩ := (hre.again hwr hsf).run
  have hn' : fs'.node p = some n := by rw [h5]; exact hn
  have hperm : fs'.readable = fs.readable ∧ fs'.writable = fs.writable := by
    have hrd : readFromPath e fs p = .ok t := by
      rw [readFromPath_eq hn hr, hd]
      simpa using read_spec (X := []) (Y := []) (e := e) (by simpa using h.fit) h.wf hc
    rw [reencodeMain, hrd] at h1
    have := (Prod.mk.inj h1).2
    obtain ⟨-, h8, h9, -⟩ := C66_write_local e fs p (reencode t) fs' _ (by rw [← this])
    exact ⟨h8, h9⟩
  have hr' : fs'.readable n = true := by rw [hperm.1]; exact hr
  have hw' : fs'.writable n = true := by rw [hperm.2]; exact hw
  have h3' : readTag e (fs'.data n) 0 = .ok u := by rw [← readFromPath_eq hn' hr']; exact h3
  have hsame : reencode u = u := by
    apply reencode_same
    rw [reencoded_eq hu]; exact reencode_noUtf16 t
  have h8 : writeTag e (fs'.data n) 0 (reencode u) = (.ok (), fs'.data n) := by
    rw [hsame, h4, writeTag]
    rw [put_put h.tables hsf] at h7
    simp only [List.nil_append, List.length_nil] at h6 h7
    rw [h6, ← h7]
  rw [reencodeMain_eq hn' hr' hw' h3' h8]
  have : fs'.store n (fs'.data n) = fs' := by
    rw [Fs.store]
    congr 1
    funext m
    split
    · rename_i hm; rw [hm]
    · rfl
  rw [this]

/-- **C101.** Whatever the files contain: no name, no permission and no file but the one that the path denotes changes. The program
panics exactly if reading or writing fails; if reading fails, nothing has changed. -/
theorem C101_failure (e : Env) (fs : Fs) (p : String) :
    (∀ r fs', reencodeMain e fs p = (r, fs') → fs'.node = fs.node ∧ fs'.readable = fs.readable ∧ fs'.writable = fs.writable ∧
      (∀ n, fs.node p ≠ some n → fs'.data n = fs.data n) ∧ ∀ k, r ≠ .err k) ∧
    ((∀ t, readFromPath e fs p ≠ .ok t) → (reencodeMain e fs p).2 = fs ∧ (reencodeMain e fs p).1 ≠ .ok ()) ∧
    (∀ k, readFromPath e fs p = .err k → (reencodeMain e fs p).1 = .panic) ∧
    ((reencodeMain e fs p).1 = .ok () ↔ ∃ t, readFromPath e fs p = .ok t ∧ ∀ u, Reencoded t u → (writeToPath e fs p u).1 = .ok ()) := by
  have hexp : ∀ r : Out Unit, (r.expect = .ok () ↔ r = .ok ()) ∧ ∀ k, r.expect ≠ .err k := by
    intro r; cases r <;> simp [Out.expect]
  rw [reencodeMain]
  cases hrd : readFromPath e fs p with
  | ok t =>
    show (∀ r fs', ((writeToPath e fs p (reencode t)).1.expect, (writeToPath e fs p (reencode t)).2) = (r, fs') → _) ∧ _
    refine ⟨?_, fun h => absurd rfl (h t), nofun, ?_⟩
    · intro r fs' h
      obtain ⟨h1, h2⟩ := Prod.mk.inj h
      obtain ⟨h3, h4, h5, h6⟩ := C66_write_local e fs p (reencode t) fs' _ (by rw [← h2])
      exact ⟨h3, h4, h5, h6, by rw [← h1]; exact (hexp _).2⟩
    · show (writeToPath e fs p (reencode t)).1.expect = .ok () ↔ _
      rw [(hexp _).1]
      constructor
      · intro h; exact ⟨t, rfl, fun u hu => by rw [reencoded_eq hu]; exact h⟩
      · rintro ⟨t', h1, h2⟩
        cases h1
        exact h2 _ (reencoded t)
  | err k | panic | fuel =>
    refine ⟨?_, ?_, ?_, ?_⟩
    · intro r fs' h
      obtain ⟨h1, h2⟩ := Prod.mk.inj h
      subst h1 h2
      exact ⟨rfl, rfl, rfl, fun _ _ => rfl, nofun⟩
    · intro _; exact ⟨rfl, nofun⟩
    · first | (intro _ _; rfl) | nofun
    · constructor
      · nofun
      · rintro ⟨t, h, -⟩; cases h

/-- **C101.** What is printed of the tag is the same, provided that no freeform item has a UTF-16 text (of freeform items the kinds
of the values are printed). -/
theorem C101_display (esc : Char → Str) (t u : Tag) (h : Reencoded t u)
    (hf : ∀ a ∈ t.atoms, ∀ m n, a.ident = .freeform m n → ∀ d ∈ a.data, ∀ s, d ≠ .utf16 s) : u.display esc = t.display esc := by
  rw [reencoded_eq h]
  have h1 := fun i => (reencode_of t i).1
  have h2 := fun i => (reencode_of t i).2.1
  have h3 := fun i => (reencode_of t i).2.2
  have h4 : (reencode t).atoms.flatMap (AtomData.formatFreeform esc) = t.atoms.flatMap (AtomData.formatFreeform esc) := by
    rw [reencode_atoms, List.flatMap_map]
    have : ∀ l : List AtomData, (∀ a ∈ l, a ∈ t.atoms) →
        l.flatMap (fun a => AtomData.formatFreeform esc ⟨a.ident, a.data.map reencodeData⟩) = l.flatMap (AtomData.formatFreeform esc) := by
      intro l hl
      induction l with
      | nil => rfl
      | cons a l ih =>
        rw [List.flatMap_cons, List.flatMap_cons, ih fun x hx => hl x (List.mem_cons_of_mem _ hx)]
        congr 1
        obtain ⟨i, ds⟩ := a
        cases i with
        | fourcc fc => rfl
        | freeform m n =>
          have hds : ds.map reencodeData = ds := by
            rw [List.map_congr_left (g := id), List.map_id]
            intro d hd
            have := hf _ (hl _ List.mem_cons_self) m n rfl d hd
            cases d <;> first | rfl | exact absurd rfl (this _)
          simp only [hds]
    exact this t.atoms fun _ h => h
  have f1 : ∀ vi, (reencode t).formatMulti vi = t.formatMulti vi := fun vi => by
    simp only [Tag.formatMulti, Tag.getStrings, Tag.getString, h1]
  have f2 : ∀ vi, (reencode t).formatSingle vi = t.formatSingle vi := fun vi => by simp only [Tag.formatSingle, Tag.getString, h1]
  have f3 : ∀ vi, (reencode t).formatFlag vi = t.formatFlag vi := fun vi => by
    have : (reencode t).getFlag (macroIdent! vi) = t.getFlag (macroIdent! vi) := by simp only [Tag.getFlag, h2]
    rw [Tag.formatFlag, Tag.formatFlag, this]
  have f4 : ∀ vi k, (reencode t).formatInt vi k = t.formatInt vi k := fun vi k => by simp only [Tag.formatInt, Tag.getInt, h2]
  have f5 : (reencode t).formatGenres = t.formatGenres := by
    simp only [Tag.formatGenres, Tag.genres, Tag.genre, Tag.standardGenre, Tag.standardGenres, Tag.getStrings, Tag.getString, h1, h2]
  have f6 : ∀ n i, (reencode t).formatPair n i = t.formatPair n i := fun n i => by simp only [Tag.formatPair, Tag.getPair, h2]
  have f7 : (reencode t).formatArtworks = t.formatArtworks := by simp only [Tag.formatArtworks, Tag.artworks, Tag.artwork, h3]
  have f8 : (reencode t).formatAdvisoryRating = t.formatAdvisoryRating := by
    simp only [Tag.formatAdvisoryRating, Tag.advisoryRating, h2]
  have f9 : (reencode t).formatMediaType = t.formatMediaType := by simp only [Tag.formatMediaType, Tag.mediaType, h2]
  have g1 : (reencode t).formatDuration = t.formatDuration := rfl
  have g2 : (reencode t).formatChannelConfig = t.formatChannelConfig := rfl
  have g3 : (reencode t).formatSampleRate = t.formatSampleRate := rfl
  have g4 : (reencode t).formatAvgBitrate = t.formatAvgBitrate := rfl
  have g5 : (reencode t).formatMaxBitrate = t.formatMaxBitrate := rfl
  have g7 : (reencode t).filetype = t.filetype := rfl
  unfold Tag.display
  simp only [f1, f2, f3, f4, f5, f6, f7, f8, f9, h4, g1, g2, g3, g4, g5, g7]

/-! ### Concrete cases -/

def atomsU : List AtomData :=
  [⟨.fourcc (cc '©' 'n' 'a' 'm'), [.utf16 ['h', 'é'], .utf8 ['b']]⟩, ⟨.freeform ['m'] ['n'], [.utf16 ['€', 'x', 'y'], .beSigned [7]]⟩]

def atomsU8 : List AtomData :=
  [⟨.fourcc (cc '©' 'n' 'a' 'm'), [.utf8 ['h', 'é'], .utf8 ['b']]⟩, ⟨.freeform ['m'] ['n'], [.utf8 ['€', 'x', 'y'], .beSigned [7]]⟩]

/-- The file of C41 ff. with UTF-16 texts. -/
def fileU : File := fileW.put atomsU

def tagU : Tag := { tagEx with atoms := atomsU }
def tagU8 : Tag := { tagEx with atoms := atomsU8 }

theorem tagU_reencoded : Reencoded tagU tagU8 := (C101_tag _ _).mpr (by decide)

theorem atomsU_fits : ∀ a ∈ atomsU, (entryOf a).box.Fits ∧ Visible a := by
  intro a ha
  simp only [atomsU, List.mem_cons, List.not_mem_nil, or_false] at ha
  rcases ha with rfl | rfl <;> exact ⟨by decide +kernel, by decide, by decide⟩

theorem fileU_content : fileU.Content tagU := by
  have h := put_content fileW_content (ilst_content atomsU_fits)
  rw [group_of_nodup (by decide)] at h
  exact h

theorem fileU_roomy : Roomy env0 fileU atomsU8 where
  wf := put_WF fileW_WF (fun _ => fileW_tables) (putFits_of_small (by decide +kernel))
  fit := ⟨by decide +kernel, by decide +kernel, by decide +kernel⟩
  items := by
    intro a ha
    simp only [atomsU8, List.mem_cons, List.not_mem_nil, or_false] at ha
    rcases ha with rfl | rfl <;> decide +kernel
  old := by decide +kernel
  new := by decide +kernel
  pos := by decide +kernel
  tables := put_tables (fun _ => fileW_tables) (fun _ => fileW_inRange _ (by decide +kernel))
  fits := putFits_of_small (by decide +kernel)
  fit' := ⟨by decide +kernel, by decide +kernel, by decide +kernel⟩

/-- One file with UTF-16 texts, under two names, and one that may not be read. -/
def fsU : Fs where
  node p := if p = "music.m4a" ∨ p = "link" then some 1 else if p = "junk" then some 2 else none
  data n := if n = 1 then fileU.ser else [1, 2, 3]
  readable n := n ≠ 2
  writable n := n ≠ 2
  creatable _ := true
  next := 3

/-- The hypotheses of C101_save hold of this file. After the run both names lead to the tag with UTF-8 texts. -/
example : ∃ fs', reencodeMain env0 fsU "music.m4a" = (.ok (), fs') ∧ readFromPath env0 fs' "music.m4a" = .ok tagU8 ∧
    readFromPath env0 fs' "link" = .ok tagU8 := by
  obtain ⟨fs', h1, -, h2, -, h3, -⟩ := C101_save env0 fsU "music.m4a" 1 fileU tagU tagU8 (by decide) rfl rfl rfl fileU_content
    tagU_reencoded fileU_roomy
  refine ⟨fs', h1, h2, ?_⟩
  rw [← h2, readFromPath, readFromPath, h3]
  rfl

/-- The second run changes nothing. -/
example : (reencodeMain env0 (reencodeMain env0 fsU "link").2 "link").1 = .ok () ∧
    (reencodeMain env0 (reencodeMain env0 fsU "link").2 "link").2.data 1 = (reencodeMain env0 fsU "link").2.data 1 ∧
    (reencodeMain env0 fsU "link").2.data 1 ≠ fsU.data 1 := by decide +kernel

/-- Without the loop the file cannot be read any more: the sizes written for UTF-16 texts are too small (C26, C91). -/
example : (writeTag env0 fileU.ser 0 tagU).1 = .ok () ∧ readTag env0 (writeTag env0 fileU.ser 0 tagU).2 0 = .err .io ∧
    readTag env0 (writeTag env0 fileU.ser 0 tagU8).2 0 = .ok tagU8 := by decide +kernel

/-- Missing and unreadable files: a panic, and nothing has changed. -/
example : (reencodeMain env0 fsU "other").1 = .panic ∧ (reencodeMain env0 fsU "junk").1 = .panic ∧
    (reencodeMain env0 fsU "junk").2.data 2 = [1, 2, 3] := by decide +kernel

/-- The condition of C101_display is needed: the kind of a freeform value is printed. -/
example : (reencode tagU).stringsOf (.data (.freeform ['m'] ['n'])) = [['€', 'x', 'y']] ∧
    (⟨.freeform ['m'] ['n'], [.utf16 ['x']]⟩ : AtomData).formatFreeform (fun c => [c]) ≠
      (⟨.freeform ['m'] ['n'], [.utf8 ['x']]⟩ : AtomData).formatFreeform (fun c => [c]) := by decide +kernel

end Mp4.Props
