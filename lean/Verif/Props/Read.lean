import Verif.Proof.ReadSim
import Verif.Proof.Dump
import Verif.Proof.TagMap
import Verif.Props.Text
/-
C31–C36, C40: what reading a well-formed file returns.
-/
namespace Mp4.Props
open Mp4 Spec

/-! ### A file for concrete cases -/

/-- Decoder specific descriptor: object type 2, rate index 4, 2 channels; extra bytes follow. -/
def dsEx : Desc := ⟨5, [0x80, 0x03], [0x12, 0x10, 0x07]⟩
/-- Decoder config, preceded by an unknown descriptor inside. -/
def dcEx : Desc :=
  ⟨4, [0x80, 0x80, 0x80, 22], [0x40, 0x15, 0, 0, 0] ++ be32 320000 ++ be32 256000 ++ Desc.ser ⟨0x0F, [1], [9]⟩ ++ dsEx.ser⟩
/-- Elementary stream descriptor. -/
def esEx : Desc := ⟨3, [33], [0, 1, 0] ++ dcEx.ser ++ Desc.ser ⟨6, [1], [2]⟩⟩
def esdsEx : Box := ⟨false, cc 'e' 's' 'd' 's', 0 :: [0, 0, 0] ++ esEx.ser ++ []⟩
def mp4aEx : Box := ⟨false, cc 'm' 'p' '4' 'a', List.replicate 28 7 ++ esdsEx.ser ++ [1, 2]⟩
def stsdEx : Box := ⟨true, cc 's' 't' 's' 'd', 0 :: [0, 0, 0] ++ be32 1 ++ serL id [mp4aEx]⟩
def trakEx : Spec.Trak :=
  [.raw ⟨false, cc 't' 'k' 'h' 'd', [1]⟩,
   .node false [.node true [.node false [stsdEx, ⟨false, cc 's' 't' 'c' 'o', [0, 0, 0, 0, 0, 0, 0, 0]⟩]]]]
def mvhdEx : Box :=
  ⟨false, cc 'm' 'v' 'h' 'd', 0 :: [0, 0, 0] ++ List.replicate 8 3 ++ be32 600 ++ be32 1000 ++ [5, 5]⟩
/-- Two `©nam` items with a freeform item and a `free` atom between them. -/
def entriesEx : List Entry :=
  [.item false (cc '©' 'n' 'a' 'm') [.data false 1 [0, 0, 0, 0] (utf8 ['a']) (.utf8 ['a'])],
   .free false [0, 0],
   .item true (cc '-' '-' '-' '-') [.mean false [0, 0, 0] ['m'], .name true [0, 0, 0] ['n'],
     .other ⟨false, cc 'x' 'y' 'z' 'w', [1]⟩, .data false 21 [0, 0, 0, 0] [7] (.beSigned [7])],
   .item false (cc '©' 'n' 'a' 'm') [.data true 1 [0, 0, 0, 0] (utf8 ['b']) (.utf8 ['b'])]]
def metaEx : Meta := ⟨[0, 0, 0], [hdlrBox, ⟨false, cc 'i' 'l' 's' 't', serL Entry.box entriesEx⟩]⟩
def fileEx : File where
  ftypExt := false
  ftyp := ['M', '4', 'A', ' ']
  pre := [⟨true, cc 'f' 'r' 'e' 'e', [0]⟩]
  moovExt := false
  moov := [.raw mvhdEx, .trak false [], .trak false trakEx, .udta true [.raw ⟨false, cc 'x' 'x' 'x' 'x', []⟩, .node false metaEx]]
  post := [⟨false, cc 'm' 'd' 'a' 't', [1, 2, 3]⟩]

def tagEx : Tag where
  ftyp := ['M', '4', 'A', ' ']
  info := { duration := some 1666666666, channelConfig := some .stereo, sampleRate := some .hz44100,
            maxBitrate := some 320000, avgBitrate := some 256000 }
  atoms := [⟨.fourcc (cc '©' 'n' 'a' 'm'), [.utf8 ['a'], .utf8 ['b']]⟩, ⟨.freeform ['m'] ['n'], [.beSigned [7]]⟩]

theorem fileEx_read : readTag env0 fileEx.ser 0 = .ok tagEx := by decide +kernel

/-! ### C31 -/

/-- **C31.** Reading a well-formed file returns its content: the file type, the audio information and the
grouped items. What precedes the start position and what follows the file does not matter. -/
theorem C31_read (e : Env) (X Y : Bytes) (f : File) (t : Tag) (hF : Fit e (X ++ f.ser ++ Y)) (hw : f.WF)
    (hc : f.Content t) : readTag e (X ++ f.ser ++ Y) X.length = .ok t := read_spec hF hw hc

/-- **C31.** Only the part up to and including `moov` matters: the rest need not be well-formed. -/
theorem C31_read_prefix (e : Env) (f : File) (t : Tag) (hF : Fit e (f.ftypBox.ser ++ serL id f.pre ++ f.moovBox.ser ++ Y))
    (h1 : f.ftypBox.Fits) (h2 : f.moovBox.Fits) (h3 : f.moov.WF)
    (h4 : ∀ b ∈ f.pre, b.Fits ∧ b.fc ≠ cc 'm' 'o' 'o' 'v') (hc : f.Content t) :
    readTag e (f.ftypBox.ser ++ serL id f.pre ++ f.moovBox.ser ++ Y) 0 = .ok t := by
  refine readTag_at hF h1 h2 h3 h4 hc (At_intro' [] Y ?_ rfl)
  simp

/-- **C31.** A well-formed file has at most one content. -/
theorem C31_unique (f : File) (t t' : Tag) (hw : f.WF) (hl : f.ser.length < 2^63 - 1) (h : f.Content t)
    (h' : f.Content t') : t = t' := content_unique hw hl h h'

theorem sel_eq {fc : Fourcc} {b : Box} (h : b.fc = fc) : Box.sel fc b = some b.body := by rw [Box.sel, if_pos h]
theorem sel_ne {fc : Fourcc} {b : Box} (h : b.fc ≠ fc) : Box.sel fc b = none := by rw [Box.sel, if_neg h]

theorem dsEx_body : DsBody dsEx.body 4 2 := ⟨2, 0, [0x07], by decide, by decide, by decide, by decide, by decide⟩

theorem dcEx_body : DcBody dcEx.body 320000 256000 [(4, 2)] := by
  refine ⟨[0x40, 0x15, 0, 0, 0], [⟨0x0F, [1], [9]⟩, dsEx], rfl, by decide, by decide, ?_, by decide, ?_⟩
  · intro d hd
    simp only [List.mem_cons, List.not_mem_nil, or_false] at hd
    rcases hd with rfl | rfl
    · exact ⟨by decide, rfl⟩
    · exact ⟨by decide, 3, ⟨by decide, rfl⟩, rfl⟩
  · exact ⟨dsEx_body, trivial⟩

theorem esEx_body : EsBody esEx.body [⟨320000, 256000, [(4, 2)]⟩] := by
  refine ⟨[0, 1, 0], [dcEx, ⟨6, [1], [2]⟩], rfl, ?_, by decide, ⟨dcEx_body, trivial⟩⟩
  intro d hd
  simp only [List.mem_cons, List.not_mem_nil, or_false] at hd
  rcases hd with rfl | rfl
  · exact ⟨by decide, 22, ⟨by decide, 22, ⟨by decide, 22, ⟨by decide, rfl⟩, rfl⟩, rfl⟩, rfl⟩
  · exact ⟨by decide, rfl⟩

theorem stsdEx_body : StsdBody stsdEx.body (some [⟨320000, 256000, [(4, 2)]⟩]) := by
  refine ⟨[0, 0, 0], be32 1, [mp4aEx], rfl, rfl, ?_, rfl, ?_⟩
  · intro x hx
    simp only [List.mem_cons, List.not_mem_nil, or_false] at hx
    subst hx; decide
  · refine LastOf_snoc (ks := []) (sel_eq rfl) ?_ (by simp)
    exact ⟨List.replicate 28 7, esdsEx, [1, 2], rfl, rfl, by decide, rfl,
      ⟨[0, 0, 0], esEx, [], rfl, rfl, ⟨by decide, rfl⟩, rfl, esEx_body⟩⟩

theorem trakEx_audio : TrakAudio trakEx (some [⟨320000, 256000, [(4, 2)]⟩]) := by
  refine ⟨some (some _), LastOf_snoc (sel := Kid.sel) (ks := [Kid.raw ⟨false, cc 't' 'k' 'h' 'd', [1]⟩]) rfl ?_ (by simp [Kid.sel]), rfl⟩
  refine ⟨some (some _), LastOf_snoc (sel := Kid.sel) (ks := []) rfl ?_ (by simp), rfl⟩
  refine ⟨some (some _), LastOf_snoc (sel := Kid.sel) (ks := []) rfl ?_ (by simp), rfl⟩
  refine ⟨some (some _), ⟨?_, ?_⟩, rfl⟩
  · intro k hk b hb
    simp only [List.mem_cons, List.not_mem_nil, or_false] at hk
    rcases hk with rfl | rfl
    · rw [sel_eq (fc := cc 's' 't' 's' 'd') (b := stsdEx) rfl] at hb
      exact ⟨_, (Option.some.inj hb) ▸ stsdEx_body⟩
    · rw [sel_ne (by decide)] at hb; simp at hb
  · exact ⟨_, rfl, stsdEx_body⟩

theorem entriesEx_WF : ∀ x ∈ entriesEx, x.WF := by
  have part : ∀ p ∈ entriesEx.flatMap (fun x => match x with | .item _ _ ps => ps | _ => []), p.WF := by
    intro p hp
    simp only [entriesEx, List.flatMap_cons, List.flatMap_nil, List.cons_append, List.nil_append, List.append_nil,
      List.mem_cons, List.not_mem_nil, or_false] at hp
    rcases hp with rfl | rfl | rfl | rfl | rfl | rfl
    · exact ⟨by decide, rfl, .utf8 _⟩
    · exact ⟨by decide, rfl⟩
    · exact ⟨by decide, rfl⟩
    · exact ⟨by decide, by decide, by decide, by decide⟩
    · exact ⟨by decide, rfl, .beSigned _⟩
    · exact ⟨by decide, rfl, .utf8 _⟩
  intro x hx
  have hin := fun p (ps : List Part) (hp : p ∈ ps) (he : ∃ a b, x = .item a b ps) => part p (by
    obtain ⟨a, b, rfl⟩ := he
    exact List.mem_flatMap.mpr ⟨_, hx, hp⟩)
  simp only [entriesEx, List.mem_cons, List.not_mem_nil, or_false] at hx
  rcases hx with rfl | rfl | rfl | rfl
  · exact ⟨by decide, by decide, fun p hp => hin p _ hp ⟨_, _, rfl⟩, by decide⟩
  · exact ⟨by decide, trivial⟩
  · exact ⟨by decide, by decide, fun p hp => hin p _ hp ⟨_, _, rfl⟩, by decide⟩
  · exact ⟨by decide, by decide, fun p hp => hin p _ hp ⟨_, _, rfl⟩, by decide⟩

/-- The items of the file in file order. -/
def itemsEx : List (DataIdent × List Data) :=
  [(.fourcc (cc '©' 'n' 'a' 'm'), [.utf8 ['a']]), (.freeform ['m'] ['n'], [.beSigned [7]]),
   (.fourcc (cc '©' 'n' 'a' 'm'), [.utf8 ['b']])]

theorem fileEx_moov : MoovContent fileEx.moov (some 1666666666) (some [⟨320000, 256000, [(4, 2)]⟩]) (some itemsEx) := by
  refine ⟨⟨?_, ?_⟩, ⟨[none, some _], ⟨?_, trakEx_audio, trivial⟩, rfl⟩, ⟨some (some itemsEx), ?_, rfl⟩⟩
  · intro k hk b hb
    simp only [fileEx, List.mem_cons, List.not_mem_nil, or_false] at hk
    rcases hk with rfl | rfl | rfl | rfl
    · rw [show MoovKid.mvhd? (.raw mvhdEx) = some mvhdEx.body from rfl] at hb
      rw [← Option.some.inj hb]
      exact ⟨_, [0, 0, 0], List.replicate 8 3, 600, 1000, [5, 5], rfl, by decide, by decide, rfl, .inl ⟨rfl, by decide, rfl⟩⟩
    all_goals simp [MoovKid.mvhd?] at hb
  · exact ⟨_, rfl, [0, 0, 0], List.replicate 8 3, 600, 1000, [5, 5], rfl, by decide, by decide, rfl, .inl ⟨rfl, by decide, rfl⟩⟩
  · exact ⟨none, LastOf_none (by simp), rfl⟩
  · refine LastOf_snoc (sel := MoovKid.udta?) (ks := [MoovKid.raw mvhdEx, MoovKid.trak false [], MoovKid.trak false trakEx]) rfl ?_ (by simp [MoovKid.udta?])
    refine ⟨some (some itemsEx), LastOf_snoc (sel := Kid.sel) (ks := [Kid.raw ⟨false, cc 'x' 'x' 'x' 'x', []⟩]) rfl ?_ (by simp [Kid.sel]), rfl⟩
    refine LastOf_snoc (ks := [hdlrBox]) (sel_eq rfl) ⟨entriesEx, entriesEx_WF, rfl, by decide⟩ ?_
    intro k hk b hb
    simp only [List.mem_cons, List.not_mem_nil, or_false] at hk
    subst hk
    rw [sel_ne (by decide)] at hb; simp at hb

/-- The hypotheses of `C31_read` hold of the example, and its conclusion is not vacuous. -/
example : fileEx.Content tagEx := ⟨_, _, _, fileEx_moov, by decide⟩

theorem fileEx_WF : fileEx.WF := by
  refine ⟨by decide +kernel, by decide +kernel, ?_, ?_, ?_⟩
  · intro k hk
    simp only [fileEx, List.mem_cons, List.not_mem_nil, or_false] at hk
    rcases hk with rfl | rfl | rfl | rfl
    · exact ⟨by decide +kernel, by decide +kernel, by decide +kernel⟩
    · exact ⟨by decide +kernel, by intro k hk; simp at hk⟩
    · refine ⟨by decide +kernel, ?_⟩
      intro k hk
      simp only [trakEx, List.mem_cons, List.not_mem_nil, or_false] at hk
      rcases hk with rfl | rfl
      · exact ⟨by decide +kernel, by decide +kernel⟩
      · refine ⟨by decide +kernel, ?_⟩
        intro k hk
        simp only [List.mem_cons, List.not_mem_nil, or_false] at hk
        subst hk
        refine ⟨by decide +kernel, ?_⟩
        intro k hk
        simp only [List.mem_cons, List.not_mem_nil, or_false] at hk
        subst hk
        refine ⟨by decide +kernel, ?_⟩
        intro b hb
        simp only [List.mem_cons, List.not_mem_nil, or_false] at hb
        rcases hb with rfl | rfl <;> decide +kernel
    · refine ⟨by decide +kernel, ?_⟩
      intro k hk
      simp only [List.mem_cons, List.not_mem_nil, or_false] at hk
      rcases hk with rfl | rfl
      · exact ⟨by decide +kernel, by decide +kernel⟩
      · refine ⟨by decide +kernel, rfl, ?_⟩
        intro b hb
        simp only [metaEx, List.mem_cons, List.not_mem_nil, or_false] at hb
        rcases hb with rfl | rfl <;> decide +kernel
  · intro b hb
    simp only [fileEx, List.mem_cons, List.not_mem_nil, or_false] at hb
    subst hb; exact ⟨by decide +kernel, by decide +kernel⟩
  · intro b hb
    simp only [fileEx, List.mem_cons, List.not_mem_nil, or_false] at hb
    subst hb; exact ⟨by decide +kernel, by decide +kernel⟩

/-- Two environments, both addressing the whole file: the release profile changes nothing. -/
example : Fit env0 ([] ++ fileEx.ser ++ []) := ⟨by decide +kernel, by decide +kernel, by decide +kernel⟩

/-! ### C32 -/

theorem valL_map (f : DataIdent → List Data) (i : DataIdent) : ∀ ks : List DataIdent, ks.Nodup →
    valL (ks.map fun k => ⟨k, f k⟩) i = if i ∈ ks then f i else []
  | [], _ => rfl
  | k :: ks, hn => by
    rw [List.nodup_cons] at hn
    rw [List.map_cons, valL_cons, valL_map f i ks hn.2]
    by_cases h : i = k
    · subst h; simp
    · simp [h, Ne.symm h]

/-- **C32.** One entry per identifier, in the order in which the identifiers first occur in the file, with
the values of all items of that identifier in file order. -/
theorem C32_merge (e : Env) (f : File) (d a items) (hF : Fit e f.ser) (hw : f.WF)
    (hc : MoovContent f.moov d a (some items)) :
    ∃ t, readTag e f.ser 0 = .ok t ∧ t.NoDup ∧
      (∀ k, k ∈ t.atoms.map AtomData.ident ↔ ∃ x ∈ items, x.1 = k) ∧
      (∀ k, t.dataOf (.data k) = (items.filter (·.1 = k)).flatMap Prod.snd) ∧
      (∀ xs x ys, items = xs ++ x :: ys → (∀ y ∈ xs, y.1 ≠ x.1) →
        ∃ A B, t.atoms.map AtomData.ident = A ++ x.1 :: B ∧ (∀ k, k ∈ A ↔ ∃ y ∈ xs, y.1 = k)) := by
  have h := read_spec (X := []) (Y := []) (e := e) (f := f) (by simpa using hF) hw ⟨d, a, some items, hc, rfl⟩
  refine ⟨_, by simpa using h, ?_, ?_, ?_, ?_⟩
  · show ((group items).map AtomData.ident).Nodup
    rw [group, List.map_map]
    exact (List.map_id _).symm ▸ firsts_nodup _
  · intro k
    show k ∈ (group items).map AtomData.ident ↔ _
    rw [group, List.map_map, show (AtomData.ident ∘ fun k => _) = id from rfl, List.map_id, mem_firsts]
    simp [List.mem_map]
  · intro k
    rw [Tag.dataOf_eq]
    show valL (group items) k = _
    rw [group, valL_map _ _ _ (firsts_nodup _)]
    split
    · rfl
    · rename_i hk
      rw [mem_firsts] at hk
      rw [List.filter_eq_nil_iff.mpr]
      · rfl
      · intro x hx; simp only [decide_eq_true_eq]; intro he; exact hk (List.mem_map.mpr ⟨x, hx, he⟩)
  · intro xs x ys he hx
    have key : ∀ (xs : List DataIdent) (k : DataIdent) (ys : List DataIdent), k ∉ xs →
        ∃ B, firsts (xs ++ k :: ys) = firsts xs ++ k :: B := by
      intro xs k
      induction xs with
      | nil => intro ys _; exact ⟨_, rfl⟩
      | cons j xs ih =>
        intro ys hk
        rw [List.mem_cons, not_or] at hk
        obtain ⟨B, hB⟩ := ih ys hk.2
        refine ⟨B.filter (· ≠ j), ?_⟩
        rw [List.cons_append, firsts, hB, List.filter_append, List.filter_cons, if_pos (by simpa using hk.1), firsts]
        rfl
    obtain ⟨B, hB⟩ := key (xs.map Prod.fst) x.1 (ys.map Prod.fst) (by
      intro hm; obtain ⟨y, hy, hyx⟩ := List.mem_map.mp hm; exact hx y hy hyx)
    refine ⟨firsts (xs.map Prod.fst), B, ?_, ?_⟩
    · show (group items).map AtomData.ident = _
      rw [group, List.map_map, show (AtomData.ident ∘ fun k => _) = id from rfl, List.map_id, he, List.map_append,
        List.map_cons, hB]
    · intro k; rw [mem_firsts]; simp [List.mem_map]

/-- **C32.** A `----` item with `mean` and `name` is identified by them, every other item by its own name;
the last `mean` and `name` count. -/
theorem C32_freeform (parts : List Part) (ext : Bool) (fc : Fourcc) :
    (Entry.item ext fc parts).decoded = some
      (if fc = cc '-' '-' '-' '-' then
        match (parts.filterMap Part.mean?).getLast?, (parts.filterMap Part.name?).getLast? with
        | some m, some n => .freeform m n
        | _, _ => .fourcc fc
       else .fourcc fc, parts.filterMap Part.value?) := by
  simp only [Entry.decoded, itemKey]
  cases (parts.filterMap Part.mean?).getLast? <;> cases (parts.filterMap Part.name?).getLast? <;> simp

example : ∃ items, MoovContent fileEx.moov (some 1666666666) (some [⟨320000, 256000, [(4, 2)]⟩]) (some items) ∧
    items.length = 3 ∧ tagEx.atoms.length = 2 := ⟨itemsEx, fileEx_moov, rfl, rfl⟩

/-! ### C33 -/

/-- **C33.** Files whose interpreted atoms are the same are read as the same tag, whatever other atoms they
contain at any level. -/
theorem C33_unknown_atoms (e : Env) (f g : File) (t : Tag) (hF : Fit e f.ser) (hG : Fit e g.ser) (hf : f.WF) (hg : g.WF)
    (hc : f.Content t) (h : SameCore f g) : readTag e f.ser 0 = .ok t ∧ readTag e g.ser 0 = .ok t := by
  obtain ⟨t', h1, h2⟩ := similar_content (sameCore_similar h hc)
  have a1 := read_spec (X := []) (Y := []) (e := e) (by simpa using hF) hf h1
  have a2 := read_spec (X := []) (Y := []) (e := e) (by simpa using hG) hg h2
  have a3 := read_spec (X := []) (Y := []) (e := e) (by simpa using hF) hf hc
  rw [a1] at a3
  cases Out.ok.inj a3
  exact ⟨by simpa using a1, by simpa using a2⟩

/-- **C33.** The same for differences inside of the leaves (`Similar`). -/
theorem C33_similar (e : Env) (f g : File) (hF : Fit e f.ser) (hG : Fit e g.ser) (hf : f.WF) (hg : g.WF)
    (h : Similar f g) : ∃ t, readTag e f.ser 0 = .ok t ∧ readTag e g.ser 0 = .ok t := by
  obtain ⟨t, h1, h2⟩ := similar_content h
  exact ⟨t, by simpa using read_spec (X := []) (Y := []) (e := e) (by simpa using hF) hf h1,
    by simpa using read_spec (X := []) (Y := []) (e := e) (by simpa using hG) hg h2⟩

/-- **C33.** `SameCore` covers inserting unknown atoms at the top level. -/
theorem C33_top (f : File) (pre post : List Box) : SameCore f { f with pre, post } := ⟨rfl, rfl⟩

theorem filterMap_insert {α β} {f : α → Option β} {x : α} (h : f x = none) (A B : List α) :
    (A ++ x :: B).filterMap f = (A ++ B).filterMap f := by
  rw [List.filterMap_append, List.filterMap_append, List.filterMap_cons_none h]

theorem filterMap_replace {α β γ} {f : α → Option β} {g : β → γ} {x y : α} (h : (f x).map g = (f y).map g) (A B : List α) :
    ((A ++ x :: B).filterMap f).map g = ((A ++ y :: B).filterMap f).map g := by
  rw [List.filterMap_append, List.filterMap_append, List.map_append, List.map_append]
  congr 1
  cases hx : f x <;> cases hy : f y <;> simp_all

/-- **C33.** `SameCore` covers inserting an unknown atom anywhere in `moov`, in any of its tracks or user
data atoms, and so on down. -/
theorem C33_insert_moov (f : File) (A B : Spec.Moov) (b : Box) (hb : b.fc ≠ cc 'm' 'v' 'h' 'd') (hm : f.moov = A ++ B) :
    SameCore f { f with moov := A ++ .raw b :: B } := by
  refine ⟨rfl, ?_⟩
  rw [hm]
  simp only [Spec.Moov.core]
  rw [filterMap_insert (f := MoovKid.mvhd?) (show MoovKid.mvhd? (.raw b) = none from sel_ne hb),
    filterMap_insert (f := MoovKid.trak?) rfl, filterMap_insert (f := MoovKid.udta?) rfl]

/-- **C33.** In user data, and in metadata. -/
theorem C33_insert_udta (f : File) (A B : Spec.Moov) (ext : Bool) (u v : Udta) (b : Box)
    (hm : f.moov = A ++ .udta ext (u ++ v) :: B) :
    SameCore f { f with moov := A ++ .udta ext (u ++ .raw b :: v) :: B } := by
  refine ⟨rfl, ?_⟩
  rw [hm]
  have : Udta.core (u ++ Kid.raw b :: v) = Udta.core (u ++ v) := by
    unfold Udta.core; rw [filterMap_insert (f := Kid.sel) rfl]
  simp only [Spec.Moov.core, List.filterMap_append, List.map_append]
  congr 2
  show (_ :: _ : List _) = _ :: _
  rw [this]

theorem C33_insert_meta (f : File) (A B : Spec.Moov) (ext ext' : Bool) (u v : Udta) (fl : Bytes) (C D : List Box) (b : Box)
    (hb : b.fc ≠ cc 'i' 'l' 's' 't')
    (hm : f.moov = A ++ .udta ext (u ++ .node ext' ⟨fl, C ++ D⟩ :: v) :: B) :
    SameCore f { f with moov := A ++ .udta ext (u ++ .node ext' ⟨fl, C ++ b :: D⟩ :: v) :: B } := by
  refine ⟨rfl, ?_⟩
  rw [hm]
  have : Udta.core (u ++ Kid.node ext' ⟨fl, C ++ b :: D⟩ :: v) = Udta.core (u ++ Kid.node ext' ⟨fl, C ++ D⟩ :: v) := by
    refine filterMap_replace (f := Kid.sel) ?_ u v
    show some (Meta.core _) = some (Meta.core _)
    congr 1
    exact filterMap_insert (f := Box.sel _) (sel_ne hb) C D
  simp only [Spec.Moov.core, List.filterMap_append, List.map_append]
  congr 2
  show (_ :: _ : List _) = _ :: _
  rw [this]

/-- **C33.** Inside of the item list: unknown parts of items and `free` atoms do not matter. -/
theorem C33_items (es : List Entry) (h : ∀ x ∈ es, x.WF) :
    SameAs IlstBody (serL Entry.box es) (serL Entry.box ((es.filter Entry.isItem).map Entry.trim)) := ilst_trim h

/-- **C33.** Inside of the sample description: sample entries other than `mp4a` do not matter. -/
theorem C33_stsd (fl fl' ct ct' : Bytes) (es es' : List Box) (h1 : fl.length = 3) (h1' : fl'.length = 3)
    (h2 : ct.length = 4) (h2' : ct'.length = 4) (h3 : ∀ x ∈ es, x.Fits) (h3' : ∀ x ∈ es', x.Fits)
    (h : All2 (SameAs Mp4aBody) (es.filterMap (Box.sel (cc 'm' 'p' '4' 'a')))
      (es'.filterMap (Box.sel (cc 'm' 'p' '4' 'a')))) :
    SameAs StsdBody (0 :: fl ++ ct ++ serL id es) (0 :: fl' ++ ct' ++ serL id es') :=
  stsd_same h1 h1' h2 h2' h3 h3' h

/-- A file like the example with other unknown atoms and other sizes. -/
def fileEx' : File :=
  { fileEx with
    ftypExt := true, pre := [], post := [⟨false, cc 'm' 'd' 'a' 't', [7]⟩], moovExt := true
    moov := [.trak true [.raw ⟨false, cc 'u' 'u' 'u' 'u', [1, 2]⟩], .raw ⟨true, cc 'f' 'r' 'e' 'e', [0]⟩, .raw { mvhdEx with ext := true },
      .trak false (trakEx.drop 1), .udta false [.node true ⟨[0, 0, 0], metaEx.kids.drop 1⟩]] }

example : SameCore fileEx fileEx' ∧ fileEx.ser ≠ fileEx'.ser ∧ readTag env0 fileEx'.ser 0 = .ok tagEx := by
  refine ⟨by decide +kernel, by decide +kernel, by decide +kernel⟩

/-! ### C34 -/

/-- No item list inside of the user data of the movie. -/
def NoIlst (m : Spec.Moov) : Prop :=
  ∀ u ∈ m.filterMap MoovKid.udta?, ∀ x ∈ u.filterMap Kid.sel, ∀ b ∈ x.kids, b.fc ≠ cc 'i' 'l' 's' 't'

/-- **C34.** Without user data, metadata or an item list, reading succeeds with no items and still reports
the file type and the audio information. -/
theorem C34_empty (e : Env) (f : File) (d a) (as : List (Option (List Config))) (hF : Fit e f.ser) (hw : f.WF)
    (hd : LastOf MoovKid.mvhd? MvhdBody f.moov d) (ha : All2 TrakAudio (f.moov.filterMap MoovKid.trak?) as)
    (haa : a = as.findSome? id) (hn : NoIlst f.moov) :
    readTag e f.ser 0 = .ok { ftyp := f.ftyp, info := audioInfo d a, atoms := [] } := by
  have hmeta : ∀ u ∈ f.moov.filterMap MoovKid.udta?, ∀ x ∈ u.filterMap Kid.sel, MetaItems x none := fun u hu x hx =>
    LastOf_none fun b hb => sel_ne (hn u hu x hx b hb)
  have hudta : ∀ u ∈ f.moov.filterMap MoovKid.udta?, UdtaItems u none := by
    intro u hu
    have h1 : ∀ k ∈ u, ∀ m, Kid.sel k = some m → MetaItems m none := fun k hk m hm =>
      hmeta u hu m (List.mem_filterMap.mpr ⟨k, hk, hm⟩)
    cases hl : (u.filterMap Kid.sel).getLast? with
    | none => exact ⟨none, ⟨fun k hk m hm => ⟨_, h1 k hk m hm⟩, by rw [hl]⟩, rfl⟩
    | some m =>
      refine ⟨some none, ⟨fun k hk m hm => ⟨_, h1 k hk m hm⟩, ?_⟩, rfl⟩
      rw [hl]
      exact ⟨none, rfl, hmeta u hu m (List.mem_of_getLast? hl)⟩
  have hitems : ∃ q, LastOf MoovKid.udta? UdtaItems f.moov q ∧ (none : Option (List (DataIdent × List Data))) = q.join := by
    have h1 : ∀ k ∈ f.moov, ∀ u, MoovKid.udta? k = some u → UdtaItems u none := fun k hk m hm =>
      hudta m (List.mem_filterMap.mpr ⟨k, hk, hm⟩)
    cases hl : (f.moov.filterMap MoovKid.udta?).getLast? with
    | none => exact ⟨none, ⟨fun k hk m hm => ⟨_, h1 k hk m hm⟩, by rw [hl]⟩, rfl⟩
    | some m =>
      refine ⟨some none, ⟨fun k hk m hm => ⟨_, h1 k hk m hm⟩, ?_⟩, rfl⟩
      rw [hl]
      exact ⟨none, rfl, hudta m (List.mem_of_getLast? hl)⟩
  have := read_spec (X := []) (Y := []) (e := e) (f := f) (by simpa using hF) hw
    ⟨d, a, none, ⟨hd, ⟨as, ha, haa⟩, hitems⟩, rfl⟩
  simpa [group_nil] using this

/-- **C34.** In particular a file with an empty `moov`. -/
theorem C34_no_moov_children (e : Env) (f : File) (hF : Fit e f.ser) (hw : f.WF) (hm : f.moov = []) :
    readTag e f.ser 0 = .ok { ftyp := f.ftyp, info := {}, atoms := [] } :=
  C34_empty e f none none [] hF hw (by rw [hm]; exact LastOf_none (by simp)) (by rw [hm]; trivial) rfl
    (by rw [hm]; intro u hu; simp at hu)

example : readTag env0 { fileEx with moov := [.raw mvhdEx, .trak false trakEx, .udta false [.node false ⟨[0, 0, 0], [hdlrBox]⟩]] : File }.ser 0
    = .ok { tagEx with atoms := [] } := by decide +kernel

/-! ### C35 -/

/-- **C35.** The duration of a version 0 movie header, in nanoseconds. -/
theorem C35_duration_v0 (e : Env) (f : File) (t : Tag) (hF : Fit e f.ser) (hw : f.WF) (hc : f.Content t)
    (A B : Spec.Moov) (ext : Bool) (flags times rest : Bytes) (timescale duration : Nat)
    (h1 : flags.length = 3) (h2 : times.length = 8) (h3 : 0 < timescale) (h4 : timescale < 2^32) (h5 : duration < 2^32)
    (hm : f.moov = A ++ .raw ⟨ext, cc 'm' 'v' 'h' 'd', 0 :: flags ++ times ++ be32 timescale ++ be32 duration ++ rest⟩ :: B)
    (hB : ∀ k ∈ B, MoovKid.mvhd? k = none) :
    ∃ u, readTag e f.ser 0 = .ok u ∧ u.info.duration = some (duration * 1000000000 / timescale) := by
  have hr := read_spec (X := []) (Y := []) (e := e) (by simpa using hF) hw hc
  refine ⟨t, by simpa using hr, ?_⟩
  obtain ⟨d, a, items, hcm, rfl⟩ := hc
  have hsel : MoovKid.mvhd? (.raw ⟨ext, cc 'm' 'v' 'h' 'd', 0 :: flags ++ times ++ be32 timescale ++ be32 duration ++ rest⟩)
    = some (0 :: flags ++ times ++ be32 timescale ++ be32 duration ++ rest) := sel_eq rfl
  have hlast : (f.moov.filterMap MoovKid.mvhd?).getLast? = some (0 :: flags ++ times ++ be32 timescale ++ be32 duration ++ rest) := by
    rw [hm, List.filterMap_append, List.filterMap_cons_some hsel, List.filterMap_eq_nil_iff.mpr hB]; simp
  have hbody : MvhdBody (0 :: flags ++ times ++ be32 timescale ++ be32 duration ++ rest) (duration * 1000000000 / timescale) :=
    ⟨flags, times, timescale, duration, rest, h1, h3, h4, rfl, .inl ⟨h2, h5, rfl⟩⟩
  have hc2 : f.Content { ftyp := f.ftyp, info := audioInfo (some (duration * 1000000000 / timescale)) a, atoms := group (items.getD []) } := by
    refine ⟨_, a, items, ⟨⟨hcm.1.1, ?_⟩, hcm.2⟩, rfl⟩
    rw [hlast]; exact ⟨_, rfl, hbody⟩
  have hr2 := read_spec (X := []) (Y := []) (e := e) (by simpa using hF) hw hc2
  rw [hr2] at hr
  rw [← Out.ok.inj hr]; rfl

/-- **C35.** The duration of a version 1 movie header. (The product has to fit 64 bits, see C39.) -/
theorem C35_duration_v1 (e : Env) (f : File) (t : Tag) (hF : Fit e f.ser) (hw : f.WF) (hc : f.Content t)
    (A B : Spec.Moov) (ext : Bool) (flags times rest : Bytes) (timescale duration : Nat)
    (h1 : flags.length = 3) (h2 : times.length = 16) (h3 : 0 < timescale) (h4 : timescale < 2^32)
    (h5 : duration * 1000000000 < 2^64)
    (hm : f.moov = A ++ .raw ⟨ext, cc 'm' 'v' 'h' 'd', 1 :: flags ++ times ++ be32 timescale ++ be64 duration ++ rest⟩ :: B)
    (hB : ∀ k ∈ B, MoovKid.mvhd? k = none) :
    ∃ u, readTag e f.ser 0 = .ok u ∧ u.info.duration = some (duration * 1000000000 / timescale) := by
  have hr := read_spec (X := []) (Y := []) (e := e) (by simpa using hF) hw hc
  refine ⟨t, by simpa using hr, ?_⟩
  obtain ⟨d, a, items, hcm, rfl⟩ := hc
  have hsel : MoovKid.mvhd? (.raw ⟨ext, cc 'm' 'v' 'h' 'd', 1 :: flags ++ times ++ be32 timescale ++ be64 duration ++ rest⟩)
    = some (1 :: flags ++ times ++ be32 timescale ++ be64 duration ++ rest) := sel_eq rfl
  have hlast : (f.moov.filterMap MoovKid.mvhd?).getLast? = some (1 :: flags ++ times ++ be32 timescale ++ be64 duration ++ rest) := by
    rw [hm, List.filterMap_append, List.filterMap_cons_some hsel, List.filterMap_eq_nil_iff.mpr hB]; simp
  have hbody : MvhdBody (1 :: flags ++ times ++ be32 timescale ++ be64 duration ++ rest) (duration * 1000000000 / timescale) :=
    ⟨flags, times, timescale, duration, rest, h1, h3, h4, rfl, .inr ⟨h2, h5, rfl⟩⟩
  have hc2 : f.Content { ftyp := f.ftyp, info := audioInfo (some (duration * 1000000000 / timescale)) a, atoms := group (items.getD []) } := by
    refine ⟨_, a, items, ⟨⟨hcm.1.1, ?_⟩, hcm.2⟩, rfl⟩
    rw [hlast]; exact ⟨_, rfl, hbody⟩
  have hr2 := read_spec (X := []) (Y := []) (e := e) (by simpa using hF) hw hc2
  rw [hr2] at hr
  rw [← Out.ok.inj hr]; rfl

/-- **C35.** Bitrates, sample rate and channels are those of the first track with an audio description
(one decoder config with one decoder specific descriptor): any length encodings and extra descriptors are
covered by `TrakAudio`. -/
theorem C35_audio (e : Env) (f : File) (d items) (hF : Fit e f.ser) (hw : f.WF)
    (T : List Spec.Trak) (trak : Spec.Trak) (U : List Spec.Trak) (us : List (Option (List Config)))
    (mx avg rate ch : Nat)
    (hd : LastOf MoovKid.mvhd? MvhdBody f.moov d)
    (ht : f.moov.filterMap MoovKid.trak? = T ++ trak :: U) (hT : ∀ x ∈ T, TrakAudio x none)
    (htr : TrakAudio trak (some [⟨mx, avg, [(rate, ch)]⟩])) (hU : All2 TrakAudio U us)
    (hi : ∃ q, LastOf MoovKid.udta? UdtaItems f.moov q ∧ items = q.join) :
    ∃ t, readTag e f.ser 0 = .ok t ∧ t.info.maxBitrate = some mx ∧ t.info.avgBitrate = some avg ∧
      t.info.sampleRate = sampleRates[rate]? ∧ t.info.channelConfig = channelOf ch := by
  have hall : ∀ T : List Spec.Trak, (∀ x ∈ T, TrakAudio x none) →
      All2 TrakAudio (T ++ trak :: U) (T.map (fun _ => none) ++ some [⟨mx, avg, [(rate, ch)]⟩] :: us) := by
    intro T
    induction T with
    | nil => intro _; exact ⟨htr, hU⟩
    | cons x T ih => intro h; exact ⟨h x (by simp), ih fun y hy => h y (by simp [hy])⟩
  have hfind : ∀ T : List Spec.Trak, (T.map (fun _ => (none : Option (List Config))) ++ some [⟨mx, avg, [(rate, ch)]⟩] :: us).findSome? id
      = some [⟨mx, avg, [(rate, ch)]⟩] := by
    intro T
    induction T with
    | nil => rfl
    | cons x T ih => exact ih
  have := read_spec (X := []) (Y := []) (e := e) (f := f) (by simpa using hF) hw
    ⟨d, some [⟨mx, avg, [(rate, ch)]⟩], items, ⟨hd, ⟨_, by rw [ht]; exact hall T hT, (hfind T).symm⟩, hi⟩, rfl⟩
  exact ⟨_, by simpa using this, rfl, rfl, rfl, rfl⟩

example : TrakAudio trakEx (some [⟨320000, 256000, [(4, 2)]⟩]) ∧ TrakAudio [] none :=
  ⟨trakEx_audio, ⟨none, LastOf_none (by simp), rfl⟩⟩

/-! ### C36 -/

/-- **C36.** Sample rates and channel counts of all indices: the MPEG-4 tables, absent beyond them. -/
theorem C36_tables :
    sampleRates.map SampleRate.hz = [96000, 88200, 64000, 48000, 44100, 32000, 24000, 22050, 16000, 12000, 11025, 8000, 7350] ∧
    channelConfigs.map ChannelConfig.channelCount = [1, 2, 3, 4, 5, 6, 8] ∧
    (∀ n, SampleRate.ofCode n = sampleRates[n]?) ∧ (∀ n, ChannelConfig.ofCode n = channelOf n) ∧
    (∀ n, 13 ≤ n → SampleRate.ofCode n = none) ∧ (∀ n, n = 0 ∨ 8 ≤ n → ChannelConfig.ofCode n = none) := by
  refine ⟨rfl, rfl, sampleRate_code, channel_code, ?_, ?_⟩
  · intro n hn; rw [sampleRate_code, List.getElem?_eq_none]; exact hn
  · rintro n (rfl | hn)
    · rfl
    · rw [channel_code, channelOf, if_neg (by omega), List.getElem?_eq_none]
      show 7 ≤ n - 1; omega

/-- **C36.** Reading never fails because of an index: a file whose descriptor carries any of the 16×16
combinations is read, with the corresponding table entries. -/
theorem C36_read (e : Env) (f : File) (d items) (hF : Fit e f.ser) (hw : f.WF) (mx avg rate ch : Nat)
    (hc : MoovContent f.moov d (some [⟨mx, avg, [(rate, ch)]⟩]) items) :
    ∃ t, readTag e f.ser 0 = .ok t ∧
      t.info.sampleRate.map SampleRate.hz = [96000, 88200, 64000, 48000, 44100, 32000, 24000, 22050, 16000, 12000, 11025, 8000, 7350][rate]? ∧
      t.info.channelConfig.map ChannelConfig.channelCount = (if ch = 0 then none else [1, 2, 3, 4, 5, 6, 8][ch - 1]?) := by
  have := read_spec (X := []) (Y := []) (e := e) (f := f) (by simpa using hF) hw ⟨_, _, _, hc, rfl⟩
  refine ⟨_, by simpa using this, ?_, ?_⟩
  · show (sampleRates[rate]?).map SampleRate.hz = _
    rw [← List.getElem?_map]; rfl
  · show (channelOf ch).map ChannelConfig.channelCount = _
    unfold channelOf
    split
    · rfl
    · rw [← List.getElem?_map]; rfl

example : MoovContent fileEx.moov (some 1666666666) (some [⟨320000, 256000, [(4, 2)]⟩]) (some itemsEx) := fileEx_moov

/-! ### C40 -/

/-- The same file with all sizes outside of `stsd` and `ilst` in the 32 bit form. -/
def noExtKid {α} (g : α → α) : Kid α → Kid α
  | .node _ a => .node false (g a)
  | .raw b => .raw { b with ext := false }

def noExtBox (b : Box) : Box := { b with ext := false }
def noExtStbl (s : Stbl) : Stbl := s.map noExtBox
def noExtTrak (t : Spec.Trak) : Spec.Trak :=
  t.map (noExtKid fun (d : Mdia) => d.map (noExtKid fun (m : Minf) => m.map (noExtKid noExtStbl)))
def noExtMeta (m : Meta) : Meta := { m with kids := m.kids.map noExtBox }
def noExtMoov (m : Spec.Moov) : Spec.Moov := m.map fun k => match k with
  | .trak _ t => .trak false (noExtTrak t)
  | .udta _ u => .udta false (u.map (noExtKid noExtMeta))
  | .raw b => .raw (noExtBox b)
def noExt (f : File) : File :=
  { f with ftypExt := false, moovExt := false, moov := noExtMoov f.moov, pre := f.pre.map noExtBox, post := f.post.map noExtBox }

theorem noExtBox_sel (fc : Fourcc) (l : List Box) : (l.map noExtBox).filterMap (Box.sel fc) = l.filterMap (Box.sel fc) := by
  rw [List.filterMap_map]; rfl

theorem noExtKid_core {α τ} {g : α → α} {core : α → τ} (h : ∀ a, core (g a) = core a) (l : List (Kid α)) :
    ((l.map (noExtKid g)).filterMap Kid.sel).map core = (l.filterMap Kid.sel).map core := by
  induction l with
  | nil => rfl
  | cons k l ih =>
    cases k with
    | node e a =>
      rw [List.map_cons, List.filterMap_cons_some (show Kid.sel (noExtKid g (.node e a)) = some (g a) from rfl),
        List.filterMap_cons_some (show Kid.sel (.node e a) = some a from rfl), List.map_cons, List.map_cons, ih, h]
    | raw b =>
      rw [List.map_cons, List.filterMap_cons_none (show Kid.sel (noExtKid g (.raw b)) = none from rfl),
        List.filterMap_cons_none (show Kid.sel (.raw b) = none from rfl), ih]

theorem noExt_core (f : File) : SameCore f (noExt f) := by
  refine ⟨rfl, ?_⟩
  have hs : ∀ s : Stbl, (noExtStbl s).core = s.core := fun s => noExtBox_sel _ s
  have ht : ∀ t : Spec.Trak, (noExtTrak t).core = t.core := fun t =>
    noExtKid_core (core := Mdia.core) (fun d => noExtKid_core (core := Minf.core) (fun m => noExtKid_core (core := Stbl.core) hs m) d) t
  have hm : ∀ m : Meta, (noExtMeta m).core = m.core := fun m => noExtBox_sel _ m.kids
  have hu : ∀ u : Udta, Udta.core (u.map (noExtKid noExtMeta)) = u.core := fun u => noExtKid_core (core := Meta.core) hm u
  show f.moov.core = (noExtMoov f.moov).core
  generalize f.moov = m
  unfold noExtMoov Spec.Moov.core
  simp only [MoovCore.mk.injEq]
  induction m with
  | nil => exact ⟨rfl, rfl, rfl⟩
  | cons k m ih =>
    obtain ⟨i1, i2, i3⟩ := ih
    cases k with
    | trak e t => refine ⟨i1, ?_, i3⟩; show _ :: _ = _ :: _; rw [ht]; exact congrArg _ i2
    | udta e u => refine ⟨i1, i2, ?_⟩; show _ :: _ = _ :: _; rw [hu]; exact congrArg _ i3
    | raw b =>
      refine ⟨?_, i2, i3⟩
      rw [List.map_cons, List.filterMap_cons, List.filterMap_cons]
      have : MoovKid.mvhd? (.raw (noExtBox b)) = MoovKid.mvhd? (.raw b) := rfl
      simp only [this]
      rw [i1]

/-- **C40.** Two files that differ only in the form of sizes, of any atom outside of `stsd` and `ilst`, are
read as the same tag. -/
theorem C40_sizes (e : Env) (f g : File) (t : Tag) (hF : Fit e f.ser) (hG : Fit e g.ser) (hf : f.WF) (hg : g.WF)
    (hc : f.Content t) (h : noExt f = noExt g) : readTag e f.ser 0 = .ok t ∧ readTag e g.ser 0 = .ok t := by
  have h1 := noExt_core f
  have h2 := noExt_core g
  refine C33_unknown_atoms e f g t hF hG hf hg hc ⟨?_, ?_⟩
  · rw [h1.1, h2.1, h]
  · rw [h1.2, h2.2, h]

/-- **C40.** Inside of the item list: items, `free` atoms and parts of items. -/
theorem C40_items (es es' : List Entry) (h : ∀ x ∈ es, x.WF) (h' : ∀ x ∈ es', x.WF)
    (he : es.map Entry.noExt = es'.map Entry.noExt) :
    SameAs IlstBody (serL Entry.box es) (serL Entry.box es') := ilst_noExt h h' he

/-- **C40.** Inside of the sample description: sample entries, and `esds`. -/
theorem C40_stsd (fl ct : Bytes) (es es' : List Box) (h1 : fl.length = 3) (h2 : ct.length = 4)
    (h3 : ∀ x ∈ es, x.Fits) (h3' : ∀ x ∈ es', x.Fits)
    (h : All2 (fun a b : Box => a.fc = b.fc ∧ (a.fc = cc 'm' 'p' '4' 'a' → SameAs Mp4aBody a.body b.body)) es es') :
    SameAs StsdBody (0 :: fl ++ ct ++ serL id es) (0 :: fl ++ ct ++ serL id es') :=
  stsd_same h1 h1 h2 h2 h3 h3' (filterMap_sel_same h)

theorem C40_esds (front rest body : Bytes) (ext ext' : Bool) (cs : List Config) (h1 : front.length = 28)
    (h2 : (⟨ext, cc 'e' 's' 'd' 's', body⟩ : Box).Fits) (h2' : (⟨ext', cc 'e' 's' 'd' 's', body⟩ : Box).Fits)
    (h : EsdsBody body cs) :
    SameAs Mp4aBody (front ++ (⟨ext, cc 'e' 's' 'd' 's', body⟩ : Box).ser ++ rest)
      (front ++ (⟨ext', cc 'e' 's' 'd' 's', body⟩ : Box).ser ++ rest) := mp4a_same h1 h1 h2 h2' h

example : noExt fileEx ≠ fileEx ∧ readTag env0 (noExt fileEx).ser 0 = .ok tagEx := by
  refine ⟨by decide +kernel, by decide +kernel⟩

end Mp4.Props
