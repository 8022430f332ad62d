import Verif.Proof.Fill
import Verif.Props.Shadow
import Verif.Props.Path
/-
C91: the tree of a file after saving a tag with UTF-16 texts, and what is read from it.
-/
namespace Mp4.Props
open Mp4 Spec

/-- The items can be written: the file is well-formed, its tables can be adjusted, and the result is addressable. Compare `Writable`. -/
structure Fillable (e : Env) (X : Bytes) (f : File) (atoms : List AtomData) : Prop where
  wf : f.WF
  fit : Fit e (X ++ f.ser)
  items : ∀ a ∈ atoms, (entryOf a).box.Fits
  old : (X ++ f.ser).length < 2^62
  new : (X ++ (f.fill (cutBox atoms)).ser).length < 2^62
  pos : (X ++ (f.fill (cutBox atoms)).ser).length ≤ e.maxPos
  tables : f.MediaBehind → f.moov.Tables

/-- **C91**: the result, for all items: the atoms around the item list and the chunk offsets are adjusted to its claimed size, it contains
the first bytes of the items, and what is left of them after overwriting everything behind it is added to the file. -/
theorem C91_tree (e : Env) (X : Bytes) (f : File) (atoms : List AtomData) (h : Fillable e X f atoms) :
    ∃ s more, writeTagTo e (X ++ f.ser) X.length atoms = (.ok (), s) ∧ s.file = X ++ (f.fill (cutBox atoms)).ser ++ more ∧
      more <:+ listBytes atoms ∧ more.length ≤ surplus atoms - (serL id f.post).length ∧
      (∀ op ∈ s.trace, f.moovPos X.length ≤ op.lo) := by
  have hN : X ++ (f.fill (cutBox atoms)).ser
      = X ++ f.ftypBox.ser ++ serL id f.pre ++ (f.fill (cutBox atoms)).moovBox.ser ++ serL id f.post := by
    simp only [File.ser, List.append_assoc]; rfl
  have hn := h.new
  have hm := h.pos
  rw [hN] at hn hm
  obtain ⟨s, A, B, h1, -, h3, -, h4, -⟩ := writeTagTo_fill (cut_carry h.items) (T := serL id f.post)
    (by simp only [File.ser, List.append_assoc]) h.fit h.wf.2.2.1 (findTop_at h.fit h.wf rfl) h.old hn hm h.tables
  refine ⟨s, _, h1, by rw [h3, hN], ?_, ?_, h4⟩
  · exact (List.drop_suffix _ _).trans (List.drop_suffix _ _)
  · have := listBytes_length atoms
    simp only [List.length_drop, List.length_append]
    omega

/-- **C91**: everything except for the item list is kept, as for other values (C43). -/
theorem C91_kept (f : File) (atoms : List AtomData) (hw : f.WF) (ht : f.MediaBehind → f.moov.Tables) (hfit : f.FillFits (cutBox atoms)) :
    (f.fill (cutBox atoms)).WF ∧ (f.fill (cutBox atoms)).ftypBox = f.ftypBox ∧ (f.fill (cutBox atoms)).pre = f.pre ∧
      (f.fill (cutBox atoms)).post = f.post ∧ (f.fill (cutBox atoms)).moovExt = f.moovExt ∧ MoovKept f.moov (f.fill (cutBox atoms)).moov :=
  ⟨fill_WF (cutBox_fits atoms) hw ht hfit, rfl, rfl, rfl, rfl, fill_kept (cutBox_fc _) ht⟩

/-- **C91**: for values other than UTF-16 texts the tree is that of C40. -/
theorem C91_same (f : File) (atoms : List AtomData) (h : ∀ a ∈ atoms, ∀ d ∈ a.data, noUtf16Text d) : f.fill (cutBox atoms) = f.put atoms := by
  rw [← fill_put, cut_plain h]

/-- **C91**: if the last value is a UTF-16 text and there is no other, half of its units are read back, and everything else as it was. -/
theorem C91_read (e : Env) (X : Bytes) (f : File) (t : Tag) (L : List AtomData) (i : DataIdent) (ds : List Data) (s y : Str)
    (h : Fillable e X f (L ++ [⟨i, ds ++ [.utf16 s]⟩])) (hfit : f.FillFits (cutBox (L ++ [⟨i, ds ++ [.utf16 s]⟩])))
    (hF : Fit e (writeTagTo e (X ++ f.ser) X.length (L ++ [⟨i, ds ++ [.utf16 s]⟩])).2.file) (hc : f.Content t)
    (hL : ∀ a ∈ L, Visible a ∧ ∀ d ∈ a.data, noUtf16Text d) (hds : ∀ d ∈ ds, noUtf16Text d) (hi : i ≠ .fourcc (cc 'f' 'r' 'e' 'e'))
    (hd : ((L ++ [(⟨i, ds ++ [.utf16 s]⟩ : AtomData)]).map (·.ident)).Nodup) (hy : utf16 y = (utf16 s).take ((utf16 s).length / 2)) :
    ∃ w, writeTagTo e (X ++ f.ser) X.length (L ++ [⟨i, ds ++ [.utf16 s]⟩]) = (.ok (), w) ∧
      readTag e w.file X.length = .ok { ftyp := t.ftyp, info := t.info, atoms := L ++ [⟨i, ds ++ [.utf16 y]⟩] } := by
  obtain ⟨w, more, h1, h2, -⟩ := C91_tree e X f _ h
  refine ⟨w, h1, ?_⟩
  rw [h1] at hF
  have hb := cut_last hL hds hi h.items hy
  have hc' := fill_content (cutBox_fc _) hc hb
  rw [group_of_nodup (by simpa using hd)] at hc'
  rw [h2] at hF ⊢
  exact read_spec hF (fill_WF (cutBox_fits _) h.wf h.tables hfit) hc'

/-- **C91**: a text of characters with one unit each loses half of its characters, each time it is saved. -/
theorem C91_half (e : Env) (X : Bytes) (f : File) (t : Tag) (L : List AtomData) (i : DataIdent) (ds : List Data) (s : Str)
    (h : Fillable e X f (L ++ [⟨i, ds ++ [.utf16 s]⟩])) (hfit : f.FillFits (cutBox (L ++ [⟨i, ds ++ [.utf16 s]⟩])))
    (hF : Fit e (writeTagTo e (X ++ f.ser) X.length (L ++ [⟨i, ds ++ [.utf16 s]⟩])).2.file)
    (hc : f.Content { t with atoms := L ++ [⟨i, ds ++ [.utf16 s]⟩] })
    (hL : ∀ a ∈ L, Visible a ∧ ∀ d ∈ a.data, noUtf16Text d) (hds : ∀ d ∈ ds, noUtf16Text d) (hi : i ≠ .fourcc (cc 'f' 'r' 'e' 'e'))
    (hd : ((L ++ [(⟨i, ds ++ [.utf16 s]⟩ : AtomData)]).map (·.ident)).Nodup) (hs : ∀ c ∈ s, c.toNat < 2^16) :
    readTag e (X ++ f.ser) X.length = .ok { t with atoms := L ++ [⟨i, ds ++ [.utf16 s]⟩] } ∧
    ∃ F', writeTag e (X ++ f.ser) X.length { t with atoms := L ++ [⟨i, ds ++ [.utf16 s]⟩] } = (.ok (), F') ∧
      readTag e F' X.length = .ok { t with atoms := L ++ [⟨i, ds ++ [.utf16 (s.take (s.length / 2))]⟩] } := by
  have h0 := read_spec (X := X) (Y := []) (e := e) (by simpa using h.fit) h.wf hc
  obtain ⟨w, h1, h2⟩ := C91_read e X f _ L i ds s _ h hfit hF hc hL hds hi hd (half_bmp hs)
  refine ⟨by simpa using h0, w.file, ?_, h2⟩
  rw [writeTag, h1]

/-! ### Examples -/

/-- An artist, and a title of two UTF-16 units. -/
def itemsH : List AtomData := [⟨.fourcc (cc '©' 'A' 'R' 'T'), [.utf8 ['x', 'y']]⟩]

theorem fileW_fill : Fillable env0 [] fileW (itemsH ++ [⟨.fourcc (cc '©' 'n' 'a' 'm'), [] ++ [.utf16 ['a', 'b']]⟩]) where
  wf := fileW_WF
  fit := fileW_writable.fit
  items := by decide +kernel
  old := fileW_writable.old
  new := by decide +kernel
  pos := by decide +kernel
  tables := fileW_writable.tables

/-- The hypotheses hold: the artist is kept, of the title the first unit is left. -/
example : ∃ w, writeTagTo env0 fileW.ser 0 (itemsH ++ [⟨.fourcc (cc '©' 'n' 'a' 'm'), [] ++ [.utf16 ['a', 'b']]⟩]) = (.ok (), w) ∧
    readTag env0 w.file 0 = .ok { ftyp := tagEx.ftyp, info := tagEx.info, atoms := itemsH ++ [⟨.fourcc (cc '©' 'n' 'a' 'm'), [] ++ [.utf16 ['a']]⟩] } :=
  C91_read env0 [] fileW tagEx itemsH (.fourcc (cc '©' 'n' 'a' 'm')) [] ['a', 'b'] ['a'] fileW_fill (fillFits_of_small (by decide +kernel))
    ⟨by decide +kernel, by decide +kernel, by decide +kernel⟩ fileW_content (by
      intro a ha
      rw [List.mem_singleton.mp ha]
      refine ⟨⟨by simp, by decide⟩, fun d hd => ?_⟩
      rw [List.mem_singleton.mp hd]; trivial) (by simp) (by decide) (by decide +kernel) (by decide +kernel)

/-- The result is the tree. -/
example : (writeTagTo env0 fileW.ser 0 atomsH).2.file = (fileW.fill (cutBox atomsH)).ser ∧
    fileW.fill (cutBox atomsH) ≠ fileW.put atomsH := ⟨by decide +kernel, by decide +kernel⟩

end Mp4.Props
