import Verif.Proof.Written
import Verif.Props.Read
/-
C41–C55, C58: writing a tag to a file.
-/
namespace Mp4.Props
open Mp4 Spec

/-- A well-formed file `f`, preceded by `X`, and items that can be written to it: no UTF-16 text, items below 4 GiB, file
lengths below 2^62 and within what the file system supports; chunk offset tables are well-formed if they have to be
adjusted. `fit` says that the file is addressable and that the recursion fuel of the model suffices. -/
structure Writable (e : Env) (X : Bytes) (f : File) (atoms : List AtomData) : Prop where
  wf : f.WF
  fit : Fit e (X ++ f.ser)
  store : ∀ a ∈ atoms, Storable a
  old : (X ++ f.ser).length < 2^62
  new : (X ++ (f.put atoms).ser).length < 2^62
  pos : (X ++ (f.put atoms).ser).length ≤ e.maxPos
  tables : f.MediaBehind → f.moov.Tables

theorem Writable.run {e X f atoms} (h : Writable e X f atoms) :
    ∃ s, writeTagTo e (X ++ f.ser) X.length atoms = (.ok (), s) ∧ s.file = X ++ (f.put atoms).ser ∧ s.buf = [] ∧ s.cur = s.file.length ∧
      (∀ op ∈ s.trace, f.moovPos X.length ≤ op.lo) ∧ s.trace.foldl Op.apply (X ++ f.ser) = s.file :=
  writeTagTo_spec h.fit h.wf h.store h.old h.new h.pos h.tables

/-- The sizes of the atoms of the result fit, it is addressable, and 64 bit chunk offsets stay in range. -/
structure Rewritable (e : Env) (X : Bytes) (f : File) (atoms : List AtomData) : Prop extends Writable e X f atoms where
  fits : f.PutFits atoms
  fit' : Fit e (X ++ (f.put atoms).ser)
  range : f.MediaBehind → f.moov.InRange (f.growth atoms)

theorem Rewritable.again {e X f A B} (h : Rewritable e X f A) (hB : Writable e X f B) (hf : SameForm A B) :
    Writable e X (f.put A) B where
  wf := put_WF h.wf h.tables h.fits
  fit := h.fit'
  store := hB.store
  old := h.new
  new := by rw [put_put h.tables hf]; exact hB.new
  pos := by rw [put_put h.tables hf]; exact hB.pos
  tables := put_tables h.tables h.range

/-! ### A file for concrete cases -/

def atomsW : List AtomData :=
  [⟨.fourcc (cc '©' 'n' 'a' 'm'), [.utf8 ['l', 'o', 'n', 'g', 'e', 'r']]⟩, ⟨.freeform ['m'] ['n'], [.beSigned [1], .utf8 ['z']]⟩]

/-- A chunk offset table with one entry. -/
def tableW (w o : Nat) (fc : Fourcc) : Box := ⟨false, fc, 0 :: [0, 0, 0] ++ be32 1 ++ encOffset w o⟩

def stblW (o : Nat) : Stbl := [stsdEx, tableW 4 o (cc 's' 't' 'c' 'o'), tableW 8 (o + 1) (cc 'c' 'o' '6' '4')]
def trakW (o : Nat) : Spec.Trak :=
  [.raw ⟨false, cc 't' 'k' 'h' 'd', [1]⟩, .node false [.node true [.node false (stblW o)]]]

/-- As `fileEx`, with chunk offsets that designate the content of `mdat`. -/
def fileW : File :=
  { fileEx with
    moov := [.raw mvhdEx, .trak false [], .trak false (trakW 506),
      .udta true [.raw ⟨false, cc 'x' 'x' 'x' 'x', []⟩, .node false metaEx]] }

instance {α} (fc : Fourcc) (ser : α → Bytes) (P : α → Prop) [DecidablePred P] (k : Kid α) : Decidable (Kid.WF fc ser P k) := by
  unfold Kid.WF; cases k <;> infer_instance
instance : DecidablePred Stbl.WF := fun s => by unfold Stbl.WF; infer_instance
instance : DecidablePred Minf.WF := fun s => by unfold Minf.WF; infer_instance
instance : DecidablePred Mdia.WF := fun s => by unfold Mdia.WF; infer_instance
instance : DecidablePred Spec.Trak.WF := fun s => by unfold Spec.Trak.WF; infer_instance
instance : DecidablePred Meta.WF := fun s => by unfold Meta.WF; infer_instance
instance : DecidablePred Udta.WF := fun s => by unfold Udta.WF; infer_instance
instance : DecidablePred MoovKid.WF := fun k => by unfold MoovKid.WF; cases k <;> infer_instance
instance : DecidablePred Spec.Moov.WF := fun k => by unfold Spec.Moov.WF; infer_instance
instance (f : File) : Decidable f.WF := by unfold File.WF; infer_instance

theorem fileW_WF : fileW.WF := by decide +kernel

theorem tableW_WF {o : Nat} (ho : o < 2^32) (fc : Fourcc) : TableWF 4 (tableW 4 o fc).body := by
  have h : offsets 4 (tableW 4 o fc).body = [o] := by
    rw [offsets, table_count (n := 1) (by decide) rfl]
    show [num (encOffset 4 o)] = [o]
    rw [num_eq, encOffset_eq (.inl rfl), beNat_toBe, Nat.mod_eq_of_lt ho]
  refine ⟨[0, 0, 0], 1, rfl, by decide, rfl, rfl, ?_⟩
  rw [h]; intro x hx; rw [List.mem_singleton.mp hx]; omega

theorem tableW_WF8 {o : Nat} (ho : o < 2^62) (fc : Fourcc) : TableWF 8 (tableW 8 o fc).body := by
  have h : offsets 8 (tableW 8 o fc).body = [o] := by
    rw [offsets, table_count (n := 1) (by decide) rfl]
    show [num (encOffset 8 o)] = [o]
    rw [num_eq, encOffset_eq (.inr rfl), beNat_toBe, Nat.mod_eq_of_lt (by omega)]
  refine ⟨[0, 0, 0], 1, rfl, by decide, rfl, rfl, ?_⟩
  rw [h]; intro x hx; rw [List.mem_singleton.mp hx]; exact ho

theorem stblW_tables {o : Nat} (ho : o < 2^32) : (stblW o).Tables := by
  constructor <;> intro body h
  · obtain rfl : (tableW 4 o (cc 's' 't' 'c' 'o')).body = body := Option.some.inj h
    exact tableW_WF ho _
  · obtain rfl : (tableW 8 (o + 1) (cc 'c' 'o' '6' '4')).body = body := Option.some.inj h
    exact tableW_WF8 (by omega) _

theorem trakW_tables {o : Nat} (ho : o < 2^32) : (trakW o).Tables := by
  intro a ha a' ha' a'' ha''
  obtain rfl : [.node true [.node false (stblW o)]] = a := Option.some.inj ha
  obtain rfl : [.node false (stblW o)] = a' := Option.some.inj ha'
  obtain rfl : stblW o = a'' := Option.some.inj ha''
  exact stblW_tables ho

theorem fileW_tables : fileW.moov.Tables := by
  intro ext t h
  simp only [fileW, List.mem_cons, List.not_mem_nil, or_false, reduceCtorEq, false_or, MoovKid.trak.injEq] at h
  rcases h with ⟨rfl, rfl⟩ | ⟨rfl, rfl⟩
  · intro a ha; cases ha
  · exact trakW_tables (by decide)

theorem atomsW_store : ∀ a ∈ atomsW, Storable a ∧ Visible a := by
  intro a ha
  simp only [atomsW, List.mem_cons, List.not_mem_nil, or_false] at ha
  rcases ha with rfl | rfl
  · refine ⟨⟨?_, by decide +kernel⟩, by decide, by decide⟩
    intro d hd
    rw [List.mem_singleton.mp hd]; trivial
  · refine ⟨⟨?_, by decide +kernel⟩, by decide, by decide⟩
    intro d hd
    simp only [List.mem_cons, List.not_mem_nil, or_false] at hd
    rcases hd with rfl | rfl <;> trivial

theorem fileW_writable : Writable env0 [] fileW atomsW where
  wf := fileW_WF
  fit := ⟨by decide +kernel, by decide +kernel, by decide +kernel⟩
  store := fun a ha => (atomsW_store a ha).1
  old := by decide +kernel
  new := by decide +kernel
  pos := by decide +kernel
  tables := fun _ => fileW_tables

theorem fileW_inRange (d : Int) (h : shiftBy d 507 < 2^62) : fileW.moov.InRange d := by
  intro ext t ht a ha a' ha' a'' ha'' body hb o ho
  simp only [fileW, List.mem_cons, List.not_mem_nil, or_false, reduceCtorEq, false_or, MoovKid.trak.injEq] at ht
  rcases ht with ⟨rfl, rfl⟩ | ⟨rfl, rfl⟩
  · cases ha
  obtain rfl : [.node true [.node false (stblW 506)]] = a := Option.some.inj ha
  obtain rfl : [.node false (stblW 506)] = a' := Option.some.inj ha'
  obtain rfl : stblW 506 = a'' := Option.some.inj ha''
  obtain rfl : (tableW 8 (506 + 1) (cc 'c' 'o' '6' '4')).body = body := Option.some.inj hb
  have : offsets 8 (tableW 8 (506 + 1) (cc 'c' 'o' '6' '4')).body = [507] := by decide +kernel
  rw [this, List.mem_singleton] at ho
  rw [ho]; exact h

theorem fileW_rewritable : Rewritable env0 [] fileW atomsW where
  toWritable := fileW_writable
  fits := putFits_of_small (by decide +kernel)
  fit' := ⟨by decide +kernel, by decide +kernel, by decide +kernel⟩
  range := fun _ => fileW_inRange _ (by decide +kernel)

/-! ### C41, C42 -/

/-- **C41.** Writing succeeds, and reading the result returns exactly the written items. -/
theorem C41_write_read (e : Env) (X : Bytes) (f : File) (t u : Tag) (h : Writable e X f u.atoms) (hfit : f.PutFits u.atoms)
    (hF : Fit e (X ++ (f.put u.atoms).ser)) (hv : ∀ a ∈ u.atoms, Visible a) (hd : u.NoDup) (hc : f.Content t) :
    ∃ F', writeTag e (X ++ f.ser) X.length u = (.ok (), F') ∧
      readTag e F' X.length = .ok { ftyp := t.ftyp, info := t.info, atoms := u.atoms } := by
  obtain ⟨s, h1, h2, -⟩ := h.run
  refine ⟨s.file, by rw [writeTag, h1], ?_⟩
  have hc' := put_content hc (ilst_content (fun a ha => ⟨(h.store a ha).2, hv a ha⟩))
  rw [group_of_nodup hd] at hc'
  have := read_spec (X := X) (Y := []) (e := e) (by simpa using hF) (put_WF h.wf h.tables hfit) hc'
  rw [h2]
  simpa using this

/-- **C42.** File type and audio information are those read before. Items without a value, which cannot be read back, are
excluded; an item called `free` is allowed (it is lost). -/
theorem C42_info (e : Env) (X : Bytes) (f : File) (t u : Tag) (h : Writable e X f u.atoms) (hfit : f.PutFits u.atoms)
    (hF : Fit e (X ++ (f.put u.atoms).ser)) (hv : ∀ a ∈ u.atoms, a.ident ≠ .fourcc (cc 'f' 'r' 'e' 'e') → a.data ≠ [])
    (hc : f.Content t) :
    readTag e (X ++ f.ser) X.length = .ok t ∧
    ∃ F' t', writeTag e (X ++ f.ser) X.length u = (.ok (), F') ∧ readTag e F' X.length = .ok t' ∧
      t'.ftyp = t.ftyp ∧ t'.info = t.info := by
  have hr := read_spec (X := X) (Y := []) (e := e) (by simpa using h.fit) h.wf hc
  refine ⟨by simpa using hr, ?_⟩
  obtain ⟨s, h1, h2, -⟩ := h.run
  have hc' := put_content hc (ilst_content_free (fun a ha => ⟨(h.store a ha).2, hv a ha⟩))
  have := read_spec (X := X) (Y := []) (e := e) (by simpa using hF) (put_WF h.wf h.tables hfit) hc'
  rw [List.append_nil] at this
  generalize group _ = g at this
  exact ⟨s.file, { ftyp := t.ftyp, info := t.info, atoms := g }, by rw [writeTag, h1], by rw [h2]; exact this, rfl, rfl⟩

theorem fileW_read : readTag env0 fileW.ser 0 = .ok tagEx := by decide +kernel

example : readTag env0 (writeTag env0 fileW.ser 0 { tagEx with atoms := atomsW }).2 0 = .ok { tagEx with atoms := atomsW } := by
  decide +kernel
/-- Behind three other bytes. -/
example : readTag env0 (writeTag env0 ([7, 7, 7] ++ fileEx.ser) 3 { tagEx with atoms := atomsW }).2 3 = .ok { tagEx with atoms := atomsW } := by
  decide +kernel

/-! ### C43, C44 -/

/-- **C43.** The result is a well-formed file with the same atoms outside of `moov`, and in it the same tree except for the
item list, missing parents and the entries of chunk offset tables. -/
theorem C43_tree (e : Env) (X : Bytes) (f : File) (atoms : List AtomData) (h : Writable e X f atoms) (hfit : f.PutFits atoms) :
    ∃ s, ∃ f' : File, writeTagTo e (X ++ f.ser) X.length atoms = (.ok (), s) ∧ s.file = X ++ f'.ser ∧ f'.WF ∧
      f'.ftypBox = f.ftypBox ∧ f'.pre = f.pre ∧ f'.post = f.post ∧ f'.moovExt = f.moovExt ∧ MoovKept f.moov f'.moov := by
  obtain ⟨s, h1, h2, -⟩ := h.run
  exact ⟨s, f.put atoms, h1, h2, put_WF h.wf h.tables hfit, rfl, rfl, rfl, rfl, put_kept h.tables⟩

/-- **C43.** If the sizes of the result stay below 4 GiB, they fit. -/
theorem C43_small (f : File) (atoms : List AtomData) (h : (f.put atoms).moov.ser.length + 8 < 2^32) : f.PutFits atoms :=
  putFits_of_small h

/-- **C44.** All other top level atoms are kept as they are, in the same order; what precedes `moov` stays where it is. -/
theorem C44_toplevel (e : Env) (X : Bytes) (f : File) (atoms : List AtomData) (h : Writable e X f atoms) :
    ∃ s moov', writeTagTo e (X ++ f.ser) X.length atoms = (.ok (), s) ∧
      X ++ f.ser = (X ++ f.ftypBox.ser ++ serL id f.pre) ++ f.moovBox.ser ++ serL id f.post ∧
      s.file = (X ++ f.ftypBox.ser ++ serL id f.pre) ++ Box.ser moov' ++ serL id f.post ∧
      moov'.fc = cc 'm' 'o' 'o' 'v' ∧ moov'.ext = f.moovExt := by
  obtain ⟨s, h1, h2, -⟩ := h.run
  refine ⟨s, (f.put atoms).moovBox, h1, by simp [File.ser], ?_, rfl, rfl⟩
  rw [h2]
  simp only [File.ser, ← List.append_assoc]
  rfl

/-- The last eleven bytes are the `mdat`, before and after. -/
example : let F' := (writeTag env0 fileW.ser 0 { tagEx with atoms := atomsW }).2
    F'.length = fileW.ser.length - 46 ∧ F'.drop (F'.length - 11) = fileW.ser.drop 498 ∧ F'.take 29 = fileW.ser.take 29 := by
  decide +kernel

/-! ### C46 -/

/-- The tracks in front are adjusted if media data follows. -/
def adjusted (f : File) (atoms : List AtomData) (ks : List MoovKid) : List MoovKid :=
  ks.map (MoovKid.mapTrak (if f.MediaBehind then Spec.Trak.shift (f.growth atoms) else id))

/-- **C46.** Without `udta`: one is appended to `moov`, with `meta`, `hdlr` and the item list. -/
theorem C46_udta (e : Env) (X : Bytes) (f : File) (atoms : List AtomData) (h : Writable e X f atoms)
    (hn : f.moov.filterMap MoovKid.udta? = []) :
    ∃ s, ∃ f' : File, ∃ x y, writeTagTo e (X ++ f.ser) X.length atoms = (.ok (), s) ∧ s.file = X ++ f'.ser ∧
      f'.moov = adjusted f atoms f.moov ++ [.udta x [.node y ⟨[0, 0, 0], [hdlrBox, ilstBox atoms]⟩]] := by
  obtain ⟨s, h1, h2, -⟩ := h.run
  refine ⟨s, f.put atoms, decide (2^32 ≤ (newUdta atoms).ser.length + 8), decide (2^32 ≤ (newMeta atoms).ser.length + 8), h1, h2, ?_⟩
  refine (put_none fun k hk hu => ?_).trans rfl
  cases k with
  | udta ext u => exact absurd ((List.filterMap_eq_nil_iff.mp hn) _ hk) (by simp [MoovKid.udta?])
  | _ => exact hu

/-- **C46.** With `udta` but without `meta`: one is appended to the last `udta`. -/
theorem C46_meta (e : Env) (X : Bytes) (f : File) (atoms : List AtomData) (h : Writable e X f atoms) (A ext u B)
    (hm : f.moov = A ++ .udta ext u :: B) (hB : B.filterMap MoovKid.udta? = []) (hn : u.filterMap Kid.sel = []) :
    ∃ s, ∃ f' : File, ∃ y, writeTagTo e (X ++ f.ser) X.length atoms = (.ok (), s) ∧ s.file = X ++ f'.ser ∧
      f'.moov = adjusted f atoms A ++ .udta ext (u ++ [.node y ⟨[0, 0, 0], [hdlrBox, ilstBox atoms]⟩]) :: B := by
  obtain ⟨s, h1, h2, -⟩ := h.run
  refine ⟨s, f.put atoms, decide (2^32 ≤ (newMeta atoms).ser.length + 8), h1, h2, ?_⟩
  have hu : ∀ k ∈ u, ¬ isMeta k := by
    intro k hk hu
    cases k with
    | node ext m => exact absurd ((List.filterMap_eq_nil_iff.mp hn) _ hk) (by simp [Kid.sel])
    | raw b => exact hu
  show f.moov.put _ atoms = _
  rw [hm, put_split, udtaPut_none hu]
  · rfl
  · intro k hk hu
    cases k with
    | udta ext u => exact absurd ((List.filterMap_eq_nil_iff.mp hB) _ hk) (by simp [MoovKid.udta?])
    | _ => exact hu

/-- **C46.** With `meta`: the last item list is replaced, or else one is appended; if there is no `hdlr`, one is inserted
directly in front. -/
theorem C46_ilst (e : Env) (X : Bytes) (f : File) (atoms : List AtomData) (h : Writable e X f atoms) (A ext u B A' ext' m B')
    (hm : f.moov = A ++ .udta ext u :: B) (hB : B.filterMap MoovKid.udta? = []) (hu : u = A' ++ .node ext' m :: B')
    (hB' : B'.filterMap Kid.sel = []) :
    ∃ s, ∃ f' : File, ∃ kids, writeTagTo e (X ++ f.ser) X.length atoms = (.ok (), s) ∧ s.file = X ++ f'.ser ∧
      f'.moov = adjusted f atoms A ++ .udta ext (A' ++ .node ext' ⟨m.flags, kids⟩ :: B') :: B ∧
      (∀ C D il, m.kids = C ++ il :: D → il.fc = cc 'i' 'l' 's' 't' → (∀ x ∈ D, x.fc ≠ cc 'i' 'l' 's' 't') →
        ((∃ x ∈ m.kids, x.fc = cc 'h' 'd' 'l' 'r') → kids = C ++ ilstBox atoms :: D) ∧
        ((∀ x ∈ m.kids, x.fc ≠ cc 'h' 'd' 'l' 'r') → kids = C ++ hdlrBox :: ilstBox atoms :: D)) ∧
      ((∀ x ∈ m.kids, x.fc ≠ cc 'i' 'l' 's' 't') →
        ((∃ x ∈ m.kids, x.fc = cc 'h' 'd' 'l' 'r') → kids = m.kids ++ [ilstBox atoms]) ∧
        ((∀ x ∈ m.kids, x.fc ≠ cc 'h' 'd' 'l' 'r') → kids = m.kids ++ [hdlrBox, ilstBox atoms])) := by
  obtain ⟨s, h1, h2, -⟩ := h.run
  refine ⟨s, f.put atoms, (m.put atoms).kids, h1, h2, ?_, ?_, ?_⟩
  · show f.moov.put _ atoms = _
    rw [hm, hu, put_split, udtaPut_split]
    · rfl
    · intro k hk hu
      cases k with
      | node ext m => exact absurd ((List.filterMap_eq_nil_iff.mp hB') _ hk) (by simp [Kid.sel])
      | raw b => exact hu
    · intro k hk hu
      cases k with
      | udta ext u => exact absurd ((List.filterMap_eq_nil_iff.mp hB) _ hk) (by simp [MoovKid.udta?])
      | _ => exact hu
  · intro C D il hk hil hD
    rw [metaPut_split hk hil hD, newKids]
    exact ⟨fun hx => by rw [if_pos hx]; simp, fun hx => by rw [if_neg (fun ⟨b, hb, hfc⟩ => hx b hb hfc)]; simp⟩
  · intro hn
    rw [metaPut_none hn, newKids]
    exact ⟨fun hx => by rw [if_pos hx], fun hx => by rw [if_neg (fun ⟨b, hb, hfc⟩ => hx b hb hfc)]⟩

/-- Files lacking parts of the hierarchy. -/
def bare (m : Spec.Moov) : File := { fileEx with moov := .raw mvhdEx :: m, post := [] }
def lacking : List File :=
  [bare [], bare [.udta false []], bare [.udta true [.raw ⟨false, cc 'f' 'r' 'e' 'e', [1]⟩], .raw ⟨false, cc 'f' 'r' 'e' 'e', []⟩],
   bare [.udta false [.node true ⟨[0, 0, 0], []⟩]], bare [.udta false [.node true ⟨[0, 0, 0], [hdlrBox]⟩, .raw ⟨false, cc 'f' 'r' 'e' 'e', []⟩]],
   bare [.udta false [.node false ⟨[0, 0, 1], [ilstBox []]⟩]]]
example : ∀ f ∈ lacking, readTag env0 (writeTag env0 f.ser 0 { tagEx with atoms := atomsW }).2 0
    = .ok { ftyp := tagEx.ftyp, info := { duration := some 1666666666 }, atoms := atomsW } := by
  decide +kernel

/-! ### C53 -/

/-- **C53.** Length accounting. -/
theorem C53_length (e : Env) (X : Bytes) (f : File) (atoms : List AtomData) (h : Writable e X f atoms) :
    ∃ s, writeTagTo e (X ++ f.ser) X.length atoms = (.ok (), s) ∧
      s.file.length + f.moov.removed.length = (X ++ f.ser).length + (f.moov.inserted atoms).length := by
  obtain ⟨s, h1, h2, -⟩ := h.run
  refine ⟨s, h1, ?_⟩
  have := put_ser_length (atoms := atoms) h.tables
  rw [h2, List.length_append, List.length_append]
  omega

example : fileW.moov.removed.length = 152 ∧ (fileW.moov.inserted atomsW).length = 106 ∧
    (writeTag env0 fileW.ser 0 { tagEx with atoms := atomsW }).2.length + 152 = fileW.ser.length + 106 := by decide +kernel

/-! ### C47, C48, C54 -/

/-- **C48.** Writing `A` and then `B` leaves the same file as writing `B` only. -/
theorem C48_last_wins (e : Env) (X : Bytes) (f : File) (A B : List AtomData) (h : Rewritable e X f A) (hB : Writable e X f B)
    (hf : SameForm A B) :
    ∃ s1 s2 s, writeTagTo e (X ++ f.ser) X.length A = (.ok (), s1) ∧ writeTagTo e s1.file X.length B = (.ok (), s2) ∧
      writeTagTo e (X ++ f.ser) X.length B = (.ok (), s) ∧ s2.file = s.file := by
  obtain ⟨s1, h1, h2, -⟩ := h.run
  obtain ⟨s2, h3, h4, -⟩ := (h.again hB hf).run
  obtain ⟨s, h5, h6, -⟩ := hB.run
  refine ⟨s1, s2, s, h1, by rw [h2]; exact h3, h5, ?_⟩
  rw [h4, h6, put_put h.tables hf]

/-- **C48.** The remaining hypothesis holds unless there are 4 GiB of metadata. -/
theorem C48_sameForm (A B : List AtomData) (hA : (ilstBox A).ser.length < 2^31) (hB : (ilstBox B).ser.length < 2^31) : SameForm A B := by
  have hm : ∀ A, (newMeta A).ser.length = 4 + hdlrBox.ser.length + (ilstBox A).ser.length := by
    intro A; simp [newMeta, Meta.ser, serL_cons, serL_nil]; omega
  have hu : ∀ A, (newUdta A).ser.length ≤ 16 + (newMeta A).ser.length := by
    intro A
    have : (newUdta A).ser.length = (Kid.box (cc 'm' 'e' 't' 'a') Meta.ser (metaKid (newMeta A))).ser.length := by
      simp [newUdta, Udta.ser, serL_cons, serL_nil]
    rw [this, Box.ser_length]
    have : (Kid.box (cc 'm' 'e' 't' 'a') Meta.ser (metaKid (newMeta A))).headLen ≤ 16 := by
      unfold Box.headLen; split <;> omega
    exact Nat.add_le_add_right this _
  have h33 : hdlrBox.ser.length = 33 := by decide +kernel
  have a1 := hm A; have a2 := hm B; have a3 := hu A; have a4 := hu B
  constructor <;> constructor <;> intro <;> omega

/-- **C47.** Writing the same items again changes nothing. -/
theorem C47_idempotent (e : Env) (X : Bytes) (f : File) (A : List AtomData) (h : Rewritable e X f A) :
    ∃ s1 s2, writeTagTo e (X ++ f.ser) X.length A = (.ok (), s1) ∧ writeTagTo e s1.file X.length A = (.ok (), s2) ∧
      s2.file = s1.file := by
  have hf : SameForm A A := ⟨Iff.rfl, Iff.rfl⟩
  obtain ⟨s1, s2, s, h1, h2, h3, h4⟩ := C48_last_wins e X f A A h h.toWritable hf
  rw [h1] at h3
  injection h3 with _ h3
  exact ⟨s1, s2, h1, h2, by rw [h4, h3]⟩

/-- **C54.** Reading the file just written and writing it back changes nothing. -/
theorem C54_read_write (e : Env) (X : Bytes) (f : File) (t u : Tag) (h : Rewritable e X f u.atoms)
    (hv : ∀ a ∈ u.atoms, Visible a) (hd : u.NoDup) (hc : f.Content t) :
    ∃ F' t', writeTag e (X ++ f.ser) X.length u = (.ok (), F') ∧ readTag e F' X.length = .ok t' ∧
      writeTag e F' X.length t' = (.ok (), F') := by
  obtain ⟨F', h1, h2⟩ := C41_write_read e X f t u h.toWritable h.fits h.fit' hv hd hc
  refine ⟨F', _, h1, h2, ?_⟩
  obtain ⟨s1, s2, h3, h4, h5⟩ := C47_idempotent e X f u.atoms h
  have hF : s1.file = F' := by
    rw [writeTag, h3] at h1
    injection h1 with _ h1
  show ((writeTagTo e F' X.length u.atoms).1, (writeTagTo e F' X.length u.atoms).2.file) = _
  rw [← hF, h4, h5]

/-- The hypotheses hold of the example. -/
example : Rewritable env0 [] fileW atomsW ∧ SameForm atomsW [] ∧ Writable env0 [] fileW [] :=
  ⟨fileW_rewritable, C48_sameForm _ _ (by decide +kernel) (by decide +kernel),
   ⟨fileW_WF, fileW_writable.fit, by simp, fileW_writable.old, by decide +kernel, by decide +kernel, fileW_writable.tables⟩⟩

example : (writeTag env0 (writeTag env0 fileW.ser 0 { tagEx with atoms := atomsW }).2 0 tagEx).2 = (writeTag env0 fileW.ser 0 tagEx).2 ∧
    (writeTag env0 fileW.ser 0 tagEx).2 ≠ fileW.ser := by decide +kernel

end Mp4.Props
