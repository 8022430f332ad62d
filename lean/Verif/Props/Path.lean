import Verif.Model.Path
import Verif.Spec.Session
import Verif.Props.Write
import Verif.Props.Dump
import Verif.Props.TagMap
/-
C66, C67: the functions that take paths, and programs that load, edit, save and dump.
-/
namespace Mp4.Props
open Mp4 Mp4.Spec

/-! ### C66 -/

/-- **C66.** A path that cannot be resolved: an I/O error, and neither a file nor a name comes into
existence. -/
theorem C66_missing (e : Env) (fs : Fs) (p : String) (t : Tag) (h : fs.node p = none) :
    readFromPath e fs p = .err .io ∧ writeToPath e fs p t = (.err .io, fs) := by
  simp only [readFromPath, writeToPath, h, and_self]

/-- **C66.** Files that may not be read or written are left alone. -/
theorem C66_permission (e : Env) (fs : Fs) (p : String) (t : Tag) (n : Nat) (h : fs.node p = some n) :
    (fs.readable n = false → readFromPath e fs p = .err .io ∧ writeToPath e fs p t = (.err .io, fs)) ∧
    (fs.writable n = false → writeToPath e fs p t = (.err .io, fs) ∧ dumpToPath e fs p t = (.err .io, fs)) := by
  constructor <;> intro h' <;> simp [readFromPath, writeToPath, dumpToPath, h, h']

/-- **C66.** Whatever the tag, the content of the file and the outcome: writing changes no name, no
permission and no file except the one the path denotes. -/
theorem C66_write_local (e : Env) (fs : Fs) (p : String) (t : Tag) (fs' : Fs) (r : Out Unit)
    (h : writeToPath e fs p t = (r, fs')) :
    fs'.node = fs.node ∧ fs'.readable = fs.readable ∧ fs'.writable = fs.writable ∧
      ∀ n, fs.node p ≠ some n → fs'.data n = fs.data n := by
  unfold writeToPath at h
  split at h
  · rename_i n hn
    split at h <;> cases h
    · refine ⟨rfl, rfl, rfl, fun m hm => ?_⟩
      show (if m = n then _ else _) = _
      rw [if_neg]; rintro rfl; exact hm hn
    · exact ⟨rfl, rfl, rfl, fun _ _ => rfl⟩
  · cases h; exact ⟨rfl, rfl, rfl, fun _ _ => rfl⟩

/-- **C66.** The same for dumping, which may add the name `p`. -/
theorem C66_dump_local (e : Env) (fs : Fs) (p : String) (t : Tag) (fs' : Fs) (r : Out Unit)
    (h : dumpToPath e fs p t = (r, fs')) :
    (∀ q, q ≠ p ∨ fs.node p ≠ none → fs'.node q = fs.node q) ∧ fs'.readable = fs.readable ∧ fs'.writable = fs.writable ∧
      ∀ n, fs'.node p ≠ some n → fs'.data n = fs.data n := by
  unfold dumpToPath at h
  split at h
  · rename_i n hn
    split at h <;> cases h
    · refine ⟨fun _ _ => rfl, rfl, rfl, fun m hm => ?_⟩
      show (if m = n then _ else _) = _
      rw [if_neg]; rintro rfl; exact hm hn
    · exact ⟨fun _ _ => rfl, rfl, rfl, fun _ _ => rfl⟩
  · rename_i hn
    split at h
    · cases h
      refine ⟨fun q hq => ?_, rfl, rfl, fun m hm => ?_⟩
      · show (if q = p then _ else _) = _
        rw [if_neg]; rintro rfl; simp [hn] at hq
      · show (if m = fs.next then _ else _) = _
        rw [if_neg]; rintro rfl; exact hm (if_pos rfl)
    · cases h; exact ⟨fun _ _ => rfl, rfl, rfl, fun _ _ => rfl⟩

/-- **C66.** A dump replaces the whole content: nothing of a longer file remains, and what the file
contained before does not matter. -/
theorem C66_dump_replaces (e : Env) (fs : Fs) (p : String) (t : Tag) (fs' : Fs)
    (hs : ∀ a ∈ t.atoms, Storable a) (h : dumpToPath e fs p t = (.ok (), fs')) :
    ∃ n, fs'.node p = some n ∧ fs'.data n = (dumpFile t.atoms).ser := by
  unfold dumpToPath at h
  rw [C28_dump e t hs] at h
  split at h
  · rename_i n hn
    split at h <;> cases h
    exact ⟨n, hn, if_pos rfl⟩
  · split at h
    · cases h
      exact ⟨fs.next, if_pos rfl, if_pos rfl⟩
    · cases h

theorem step_local (e : Env) (c : Cmd) (x : Session) (n : Nat)
    (hl : n < x.fs.next) (hc : ∀ p, target c = some p → x.fs.node p ≠ some n) :
    (x.step e c).2.fs.data n = x.fs.data n ∧ n < (x.step e c).2.fs.next ∧
      ∀ p, (x.step e c).2.fs.node p = some n ↔ x.fs.node p = some n := by
  cases c with
  | load p =>
    simp only [Session.step]
    split <;> exact ⟨rfl, hl, fun _ => Iff.rfl⟩
  | edit op => exact ⟨rfl, hl, fun _ => Iff.rfl⟩
  | save p =>
    simp only [Session.step, writeToPath]
    split
    · rename_i m hm
      split
      · refine ⟨if_neg ?_, hl, fun _ => Iff.rfl⟩
        rintro rfl; exact hc p rfl hm
      · exact ⟨rfl, hl, fun _ => Iff.rfl⟩
    · exact ⟨rfl, hl, fun _ => Iff.rfl⟩
  | dump p =>
    simp only [Session.step, dumpToPath]
    split
    · rename_i m hm
      split
      · refine ⟨if_neg ?_, hl, fun _ => Iff.rfl⟩
        rintro rfl; exact hc p rfl hm
      · exact ⟨rfl, hl, fun _ => Iff.rfl⟩
    · rename_i hp
      split
      · have hmn : n ≠ x.fs.next := by omega
        refine ⟨if_neg hmn, Nat.lt_succ_of_lt hl, fun r => ?_⟩
        show (if r = p then some x.fs.next else x.fs.node r) = some n ↔ _
        split
        · rename_i hr; subst hr; rw [hp]; simp [Ne.symm hmn]
        · exact Iff.rfl
      · exact ⟨rfl, hl, fun _ => Iff.rfl⟩

/-- **C66.** In a program of any length, whatever the files contain and whether or not it runs to its end:
a file keeps its bytes and its names unless a save or dump is given one of its names. -/
theorem C66_session_local (cs : List (Env × Cmd)) (x : Session) (n : Nat)
    (hl : n < x.fs.next)
    (hc : ∀ ec ∈ cs, ∀ p, target ec.2 = some p → x.fs.node p ≠ some n) :
    (x.run cs).2.fs.data n = x.fs.data n ∧ ∀ p, (x.run cs).2.fs.node p = some n ↔ x.fs.node p = some n := by
  induction cs generalizing x with
  | nil => exact ⟨rfl, fun _ => Iff.rfl⟩
  | cons ec cs ih =>
    obtain ⟨e, c⟩ := ec
    obtain ⟨h1, h2, h3⟩ := step_local e c x n hl (hc (e, c) (by simp))
    rw [Session.run]
    generalize hr : x.step e c = r at h1 h2 h3
    obtain ⟨o, y⟩ := r
    cases o with
    | ok v =>
      simp only at h1 h2 h3 ⊢
      obtain ⟨h4, h5⟩ := ih y h2
        (fun z hz p hp hn => hc z (by simp [hz]) p hp ((h3 p).mp hn))
      exact ⟨h4.trans h1, fun p => (h5 p).trans (h3 p)⟩
    | err k => exact ⟨h1, h3⟩
    | panic => exact ⟨h1, h3⟩
    | fuel => exact ⟨h1, h3⟩

/-! ### C67 -/

/-- The conditions under which saving and dumping are expected to work, in every environment in which
the program is run: the conditions of C41 and C48 for saving, those of C29 for dumping. -/
def limits (P : Env → Prop) : Limits where
  save f atoms := (∀ e, P e → Rewritable e [] f atoms) ∧ (∀ a ∈ atoms, Visible a) ∧ (ilstBox atoms).ser.length < 2^31
  dump atoms := (∀ a ∈ atoms, Storable a ∧ Visible a) ∧ ∀ e, P e → Fit e (dumpFile atoms).ser

/-- A file consists of a tree, and is accepted in all environments. -/
structure Fresh (P : Env → Prop) (f : File) (t : Tag) (F : Bytes) : Prop where
  data : F = f.ser
  wf : f.WF
  content : f.Content t
  fit : ∀ e, P e → Fit e f.ser

/-- The relation kept by all steps: the file consists of the tree, or of the tree with other items. -/
def Holds (P : Env → Prop) (f : File) (t : Tag) (F : Bytes) : Prop :=
  Fresh P f t F ∨ ∃ t0 A, f.Content t0 ∧ (limits P).save f A ∧ (A.map (·.ident)).Nodup ∧
    F = (f.put A).ser ∧ t = { ftyp := t0.ftyp, info := t0.info, atoms := A }

/-- The initial situation of C67. -/
structure Start (P : Env → Prop) (fs : Fs) (s : Store) : Prop where
  node : fs.node = s.node
  next : fs.next = s.next
  files : ∀ n f t, s.files n = some (f, t) → Fresh P f t (fs.data n)
  tag : s.tag.NoDup

theorem Holds.read {P f t F} (h : Holds P f t F) (e : Env) (he : P e) : readTag e F 0 = .ok t := by
  rcases h with ⟨rfl, hw, hc, hF⟩ | ⟨t0, A, hc, ⟨hR, hv, _⟩, hd, rfl, rfl⟩
  · have := read_spec (X := []) (Y := []) (e := e) (by simpa using hF e he) hw hc
    simpa using this
  · have hr := hR e he
    have hc' := put_content hc (ilst_content (fun a ha => ⟨(hr.store a ha).2, hv a ha⟩))
    rw [group_of_nodup hd] at hc'
    have := read_spec (X := []) (Y := []) (e := e) (by simpa using hr.fit') (put_WF hr.wf hr.tables hr.fits) hc'
    simpa using this

theorem Holds.write {P f t F} (h : Holds P f t F) (e : Env) (he : P e) (u : Tag) (hs : (limits P).save f u.atoms) (hd : u.NoDup) :
    ∃ F', writeTag e F 0 u = (.ok (), F') ∧ Holds P f { ftyp := t.ftyp, info := t.info, atoms := u.atoms } F' := by
  have hr := hs.1 e he
  rcases h with ⟨rfl, hw, hc, hF⟩ | ⟨t0, A, hc, hA, hdA, rfl, rfl⟩
  · obtain ⟨s, h1, h2, -⟩ := hr.run
    exact ⟨s.file, by rw [writeTag]; simp only [List.nil_append, List.length_nil] at h1; rw [h1],
      .inr ⟨t, u.atoms, hc, hs, hd, by simpa using h2, rfl⟩⟩
  · have hf : SameForm A u.atoms := C48_sameForm _ _ hA.2.2 hs.2.2
    obtain ⟨s, h1, h2, -⟩ := ((hA.1 e he).again hr.toWritable hf).run
    exact ⟨s.file, by rw [writeTag]; simp only [List.nil_append, List.length_nil] at h1; rw [h1],
      .inr ⟨t0, u.atoms, hc, hs, hd, by rw [put_put hr.tables hf] at h2; simpa using h2, rfl⟩⟩

theorem dumped_fresh {P : Env → Prop} {atoms : List AtomData} (hs : (limits P).dump atoms) (hd : (atoms.map (·.ident)).Nodup) :
    Fresh P (dumpFile atoms) (dumped atoms) (dumpFile atoms).ser where
  data := rfl
  wf := dumpFile_WF atoms
  content := by
    have hc := dumpFile_content (ilst_content (fun a ha => ⟨(hs.1 a ha).1.2, (hs.1 a ha).2⟩))
    rw [group_of_nodup hd] at hc
    exact hc
  fit := hs.2

/-- The relation between the program and its specification. -/
structure Rel (P : Env → Prop) (fs0 : Fs) (x : Session) (s : Store) : Prop where
  node : x.fs.node = s.node
  readable : x.fs.readable = fs0.readable
  writable : x.fs.writable = fs0.writable
  creatable : x.fs.creatable = fs0.creatable
  next : x.fs.next = s.next
  tagEq : x.tag = s.tag
  tag : s.tag.NoDup
  files : ∀ n f t, s.files n = some (f, t) → Holds P f t (x.fs.data n)
  others : ∀ n, s.files n = none → x.fs.data n = fs0.data n

theorem store_rel {P fs0 x s n f t F} (h : Rel P fs0 x s) (hF : Holds P f t F) :
    Rel P fs0 { x with fs := x.fs.store n F } (s.put n f t) where
  node := h.node
  readable := h.readable
  writable := h.writable
  creatable := h.creatable
  next := h.next
  tagEq := h.tagEq
  tag := h.tag
  files := by
    intro m g u hm
    simp only [Store.put] at hm
    simp only [Fs.store]
    split at hm
    · rename_i hmn; cases hm; rw [if_pos hmn]; exact hF
    · rename_i hmn; rw [if_neg hmn]; exact h.files m g u hm
  others := by
    intro m hm
    simp only [Store.put] at hm
    simp only [Fs.store]
    split at hm
    · cases hm
    · rename_i hmn; rw [if_neg hmn]; exact h.others m hm

theorem step_rel {P fs0 x s c s'} {e : Env} (he : P e) (h : Rel P fs0 x s) (hs : Step fs0 (limits P) s c s') :
    ∃ x', x.step e c = (.ok (), x') ∧ Rel P fs0 x' s' := by
  cases hs with
  | @load p n f t h1 h2 h3 =>
    have hr : readFromPath e x.fs p = .ok t := by
      simp only [readFromPath, h.node, h1, h.readable, h2, if_true]
      exact (h.files n f t h3).read e he
    refine ⟨{ x with tag := t }, by simp only [Session.step, hr], ?_⟩
    exact ⟨h.node, h.readable, h.writable, h.creatable, h.next, rfl, readTag_noDup ((h.files n f t h3).read e he), h.files, h.others⟩
  | @edit op =>
    refine ⟨{ x with tag := op.run x.tag }, rfl, ?_⟩
    exact ⟨h.node, h.readable, h.writable, h.creatable, h.next, by simp only [h.tagEq], run_noDup op _ h.tag, h.files, h.others⟩
  | @save p n f t h1 h2 h3 h4 h5 =>
    obtain ⟨F', hw, hF'⟩ := (h.files n f t h4).write e he s.tag h5 h.tag
    refine ⟨{ x with fs := x.fs.store n F' }, ?_, store_rel h hF'⟩
    simp only [Session.step, writeToPath, h.node, h1, h.readable, h2, h.writable, h3, Bool.and_self, if_true, h.tagEq, hw]
  | @replace p n h1 h2 h3 =>
    have hd := C28_dump e s.tag (fun a ha => (h3.1 a ha).1)
    refine ⟨{ x with fs := x.fs.store n _ }, ?_, store_rel h (.inl (dumped_fresh h3 h.tag))⟩
    simp only [Session.step, dumpToPath, h.node, h1, h.writable, h2, if_true, h.tagEq, hd]
  | @create p h1 h2 h3 =>
    have hd := C28_dump e s.tag (fun a ha => (h3.1 a ha).1)
    have hr := store_rel (n := s.next) h (.inl (dumped_fresh h3 h.tag))
    refine ⟨{ x with fs := { x.fs.store s.next (dumpFile s.tag.atoms).ser with node := fun q => if q = p then some s.next else x.fs.node q, next := s.next + 1 } }, ?_, ?_⟩
    · simp only [Session.step, dumpToPath, h.node, h1, h.creatable, h.next, h2, if_true, h.tagEq, hd]
    · exact ⟨by simp only [Store.link, h.node, Store.put], hr.readable, hr.writable, hr.creatable, rfl, hr.tagEq, hr.tag, hr.files, hr.others⟩

theorem run_rel {P fs0 s cs s'} (hs : Steps fs0 (limits P) s cs s') :
    ∀ {x : Session} {es : List (Env × Cmd)}, es.map (·.2) = cs → (∀ ec ∈ es, P ec.1) → Rel P fs0 x s →
      ∃ x', x.run es = (.ok (), x') ∧ Rel P fs0 x' s' := by
  induction hs with
  | nil =>
    intro x es h1 _ h
    cases es with
    | nil => exact ⟨x, rfl, h⟩
    | cons => cases h1
  | cons hst _ ih =>
    intro x es h1 he h
    cases es with
    | nil => cases h1
    | cons ec es =>
      simp only [List.map_cons, List.cons.injEq] at h1
      obtain ⟨rfl, h1⟩ := h1
      obtain ⟨x1, h2, h3⟩ := step_rel (he ec (by simp)) h hst
      obtain ⟨x2, h4, h5⟩ := ih h1 (fun y hy => he y (by simp [hy])) h3
      refine ⟨x2, ?_, h5⟩
      rw [Session.run]
      simp only [h2]
      exact h4

theorem Start.rel {P fs s} (h : Start P fs s) : Rel P fs ⟨fs, s.tag⟩ s where
  node := h.node
  readable := rfl
  writable := rfl
  creatable := rfl
  next := h.next
  tagEq := rfl
  tag := h.tag
  files := fun n f t hn => .inl (h.files n f t hn)
  others := fun _ _ => rfl

/-- **C67.** A program that loads, edits, saves and dumps any number of tags, in any order, to any files,
under several names, does what the specification says: all steps succeed; the tag it ends with and the
tags that can be read from all files are the specified ones; and other files are not changed. The
environments (buffer sizes, checked arithmetic, file system limits) may differ from step to step. -/
theorem C67_session (P : Env → Prop) (fs : Fs) (s s' : Store) (cs : List (Env × Cmd)) (h : Start P fs s)
    (hP : ∀ ec ∈ cs, P ec.1) (hs : Steps fs (limits P) s (cs.map (·.2)) s') :
    ∃ x, Session.run cs ⟨fs, s.tag⟩ = (.ok (), x) ∧ x.tag = s'.tag ∧ x.fs.node = s'.node ∧
      (∀ p n f t e, s'.node p = some n → fs.readable n = true → s'.files n = some (f, t) → P e →
        readFromPath e x.fs p = .ok t) ∧
      ∀ n, s'.files n = none → x.fs.data n = fs.data n := by
  obtain ⟨x, h1, h2⟩ := run_rel hs rfl hP h.rel
  refine ⟨x, h1, h2.tagEq, h2.node, ?_, h2.others⟩
  intro p n f t e hp hr hf he
  simp only [readFromPath, h2.node, hp, h2.readable, hr, if_true]
  exact (h2.files n f t hf).read e he

/-- **C67.** There is no drift: after any number of saves, a file is unchanged or consists of the very
bytes a single save of the last tag would have produced. -/
theorem C67_no_drift (P : Env → Prop) (fs : Fs) (s s' : Store) (cs : List (Env × Cmd)) (h : Start P fs s)
    (hP : ∀ ec ∈ cs, P ec.1) (hs : Steps fs (limits P) s (cs.map (·.2)) s') (n : Nat) (f : File) (t t' : Tag)
    (hn : s.files n = some (f, t)) (hn' : s'.files n = some (f, t')) :
    ∃ x, Session.run cs ⟨fs, s.tag⟩ = (.ok (), x) ∧
      (x.fs.data n = fs.data n ∨ ∀ e, P e → writeTag e (fs.data n) 0 t' = (.ok (), x.fs.data n)) := by
  obtain ⟨x, h1, h2⟩ := run_rel hs rfl hP h.rel
  refine ⟨x, h1, ?_⟩
  have h0 := (h.files n f t hn).data
  rcases h2.files n f t' hn' with hf | ⟨t0, A, hc, hA, hd, hF, rfl⟩
  · exact .inl (by rw [hf.data, h0])
  · refine .inr fun e he => ?_
    obtain ⟨w, h3, h4, -⟩ := (hA.1 e he).run
    simp only [List.nil_append, List.length_nil] at h3 h4
    rw [h0, writeTag]
    show ((writeTagTo e f.ser 0 A).1, (writeTagTo e f.ser 0 A).2.file) = _
    rw [h3, hF, ← h4]

/-! ### Concrete cases -/

theorem stsdW_audio (o : Nat) : TrakAudio (trakW o) (some [⟨320000, 256000, [(4, 2)]⟩]) := by
  refine ⟨some (some _), LastOf_snoc (sel := Kid.sel) (ks := [Kid.raw ⟨false, cc 't' 'k' 'h' 'd', [1]⟩]) rfl ?_ (by simp [Kid.sel]), rfl⟩
  refine ⟨some (some _), LastOf_snoc (sel := Kid.sel) (ks := []) rfl ?_ (by simp), rfl⟩
  refine ⟨some (some _), LastOf_snoc (sel := Kid.sel) (ks := []) rfl ?_ (by simp), rfl⟩
  refine ⟨some (some _), ⟨?_, ?_⟩, rfl⟩
  · intro k hk b hb
    simp only [stblW, List.mem_cons, List.not_mem_nil, or_false] at hk
    rcases hk with rfl | rfl | rfl
    · rw [sel_eq (fc := cc 's' 't' 's' 'd') (b := stsdEx) rfl] at hb
      exact ⟨_, (Option.some.inj hb) ▸ stsdEx_body⟩
    · rw [sel_ne (by simp only [tableW]; decide)] at hb; simp at hb
    · rw [sel_ne (by simp only [tableW]; decide)] at hb; simp at hb
  · exact ⟨_, rfl, stsdEx_body⟩

theorem fileW_content : fileW.Content tagEx := by
  refine ⟨some 1666666666, some [⟨320000, 256000, [(4, 2)]⟩], some itemsEx, ?_, by decide⟩
  obtain ⟨h1, -, h3⟩ := fileEx_moov
  refine ⟨?_, ⟨[none, some _], ⟨⟨none, LastOf_none (by simp), rfl⟩, stsdW_audio 506, trivial⟩, rfl⟩, ?_⟩
  · obtain ⟨h4, h5⟩ := h1
    refine ⟨?_, h5⟩
    intro k hk b hb
    simp only [fileW, List.mem_cons, List.not_mem_nil, or_false] at hk
    rcases hk with rfl | rfl | rfl | rfl
    · exact h4 _ (by simp [fileEx]) b hb
    all_goals simp [MoovKid.mvhd?] at hb
  · obtain ⟨r, h4, h5⟩ := h3
    refine ⟨r, ?_, h5⟩
    cases r with
    | none => simp at h5
    | some r =>
      obtain ⟨h6, h7⟩ := h4
      refine ⟨?_, h7⟩
      intro k hk b hb
      simp only [fileW, List.mem_cons, List.not_mem_nil, or_false] at hk
      rcases hk with rfl | rfl | rfl | rfl
      · simp [MoovKid.udta?] at hb
      · simp [MoovKid.udta?] at hb
      · simp [MoovKid.udta?] at hb
      · exact h6 _ (by simp [fileEx]) b hb

/-- Two names for the file `fileW`, and one for something that is not an MPEG-4 file. -/
def fsEx : Fs where
  node p := if p = "a" ∨ p = "link" then some 1 else if p = "junk" then some 2 else none
  data n := if n = 1 then fileW.ser else [1, 2, 3]
  readable n := n ≠ 2
  writable n := n ≠ 2
  creatable p := p = "new"
  next := 3

/-- What is expected of the initial files. -/
def storeEx : Store where
  node := fsEx.node
  next := 3
  files n := if n = 1 then some (fileW, tagEx) else none
  tag := { atoms := atomsW }

/-- Save under one name, load under the other, dump to a new file, clear, save, load the new file. -/
def cmdsEx : List Cmd := [.save "a", .load "link", .dump "new", .edit .clear, .save "link", .load "new"]

theorem fsEx_start : Start (· = env0) fsEx storeEx where
  node := rfl
  next := rfl
  files := by
    intro n f t h
    simp only [storeEx] at h
    split at h
    · rename_i hn; subst hn
      cases h
      exact ⟨rfl, fileW_WF, fileW_content, fun e he => he ▸ fileW_writable.fit⟩
    · cases h
  tag := by decide

theorem fileW_rewritable_nil : Rewritable env0 [] fileW [] where
  wf := fileW_WF
  fit := fileW_writable.fit
  store := by simp
  old := fileW_writable.old
  new := by decide +kernel
  pos := by decide +kernel
  tables := fileW_writable.tables
  fits := putFits_of_small (by decide +kernel)
  fit' := ⟨by decide +kernel, by decide +kernel, by decide +kernel⟩
  range := fun _ => fileW_inRange _ (by decide +kernel)

/-- The hypotheses hold of this program: it ends with the tag of the new file, the first file has no items but still its audio
information. -/
theorem cmdsEx_steps : ∃ s', Steps fsEx (limits (· = env0)) storeEx cmdsEx s' ∧ s'.tag = dumped atomsW ∧
    s'.files 1 = some (fileW, { tagEx with atoms := [] }) ∧ s'.node "new" = some 3 ∧ s'.files 2 = none ∧
    s'.node "a" = some 1 := by
  refine ⟨_, .cons (.save (n := 1) (f := fileW) (t := tagEx) rfl rfl rfl rfl ?_)
    (.cons (.load (n := 1) (f := fileW) (t := { tagEx with atoms := atomsW }) rfl rfl rfl)
    (.cons (.create rfl rfl ?_)
    (.cons .edit
    (.cons (.save (n := 1) (f := fileW) (t := { tagEx with atoms := atomsW }) rfl rfl rfl rfl ?_)
    (.cons (.load (n := 3) (f := dumpFile atomsW) (t := dumped atomsW) rfl rfl rfl) .nil))))), rfl, rfl, rfl, rfl, rfl⟩
  · exact ⟨fun e he => he ▸ fileW_rewritable, fun a ha => (atomsW_store a ha).2, by decide +kernel⟩
  · exact ⟨atomsW_store, fun e he => he ▸ ⟨by decide +kernel, by decide +kernel, by decide +kernel⟩⟩
  · exact ⟨fun e he => he ▸ fileW_rewritable_nil, by simp [TagOp.run, Tag.clear], by decide +kernel⟩

/-- The conclusion for this program. -/
example : ∃ x, Session.run (cmdsEx.map (env0, ·)) ⟨fsEx, { atoms := atomsW }⟩ = (.ok (), x) ∧ x.tag = dumped atomsW ∧
    readFromPath env0 x.fs "a" = .ok { tagEx with atoms := [] } ∧ x.fs.data 2 = [1, 2, 3] := by
  obtain ⟨s', hs, h1, h2, -, h4, h0⟩ := cmdsEx_steps
  obtain ⟨x, h5, h6, -, h8, h9⟩ := C67_session _ fsEx storeEx s' (cmdsEx.map (env0, ·)) fsEx_start (by simp) hs
  exact ⟨x, h5, by rw [h6, h1], h8 "a" 1 _ _ env0 h0 rfl h2 rfl, h9 2 h4⟩

/-- The bytes of the first file are those a single save of no items produces. -/
example : ∃ x, Session.run (cmdsEx.map (env0, ·)) ⟨fsEx, { atoms := atomsW }⟩ = (.ok (), x) ∧
    (x.fs.data 1 = fileW.ser ∨ ∀ e, e = env0 → writeTag e fileW.ser 0 { tagEx with atoms := [] } = (.ok (), x.fs.data 1)) := by
  obtain ⟨s', hs, -, h2, -⟩ := cmdsEx_steps
  exact C67_no_drift _ fsEx storeEx s' (cmdsEx.map (env0, ·)) fsEx_start (by simp) hs 1 fileW tagEx _ rfl h2

/-- Dumping to an existing file and to a path at which nothing can be created. -/
example : (dumpToPath env0 fsEx "a" { atoms := atomsW }).2.data 1 = (dumpFile atomsW).ser ∧
    (dumpToPath env0 fsEx "a" { atoms := atomsW }).1 = .ok () ∧
    (dumpToPath env0 fsEx "dir/x" { atoms := atomsW }).1 = .err .io ∧
    (writeToPath env0 fsEx "junk" { atoms := atomsW }).1 = .err .io ∧
    (writeToPath env0 fsEx "nothing" { atoms := atomsW }).2.node "nothing" = none := by decide +kernel

/-- The new file does not touch the others, in a program that fails at its second step. -/
example : (Session.run [(env0, .dump "new"), (env0, .load "junk"), (env0, .save "a")] ⟨fsEx, { atoms := atomsW }⟩).1 = .err .io ∧
    (Session.run [(env0, .dump "new"), (env0, .load "junk"), (env0, .dump "new")] ⟨fsEx, { atoms := atomsW }⟩).2.fs.data 1 = fileW.ser :=
  ⟨by decide +kernel, (C66_session_local _ _ 1 (by decide) (by
    intro ec hec p hp
    simp only [List.mem_cons, List.not_mem_nil, or_false] at hec
    rcases hec with rfl | rfl | rfl
    · cases hp; decide
    · cases hp
    · cases hp; decide)).1⟩

/-- Names without a file, and a file without permissions. Dumping to a file replaces it. -/
example : fsEx.node "other" = none ∧ fsEx.node "junk" = some 2 ∧ fsEx.readable 2 = false ∧ fsEx.writable 2 = false ∧
    (writeToPath env0 fsEx "link" { atoms := atomsW }).1 = .ok () ∧
    (writeToPath env0 fsEx "link" { atoms := atomsW }).2.data 1 ≠ fileW.ser ∧
    (dumpToPath env0 fsEx "a" { atoms := atomsW }).1 = .ok () ∧
    (dumpToPath env0 fsEx "a" { atoms := atomsW }).2.data 1 = (dumpFile atomsW).ser := by
  refine ⟨by decide, by decide, by decide, by decide, by decide +kernel, by decide +kernel, by decide +kernel, by decide +kernel⟩

end Mp4.Props
