import Verif.Proof.Offset
import Verif.Props.WriteMore
import Verif.Props.Accessors
import Verif.Props.Display
import Verif.Props.Genre
/-
Exact conditions under which the claims that are false in general hold.
-/
namespace Mp4.Props
open Mp4 Spec

/-! ### C45 -/

/-- **C45**, for all files: where all media data is moved, and what becomes of all chunk offsets. -/
theorem C45_exact (e : Env) (X : Bytes) (f : File) (atoms : List AtomData) (h : Writable e X f atoms) (E L : List Spec.Trak) (hs : f.moov.Split E L) :
    ∃ s, ∃ f' : File, ∃ E' : List Spec.Trak, writeTagTo e (X ++ f.ser) X.length atoms = (.ok (), s) ∧ s.file = X ++ f'.ser ∧ MoovKept f.moov f'.moov ∧
      (∀ o n, 0 < n → f.InMdat X.length o n →
        bytesAt s.file (movedTo (f.moovPos X.length) (f.growth atoms) o) n = bytesAt (X ++ f.ser) o n) ∧
      f.moov.traks = E ++ L ∧ f'.moov.traks = E' ++ L ∧
      All2 (fun t t' : Spec.Trak =>
        t'.chunks32 = t.chunks32.map (fun o => if f.MediaBehind then ((o + f.growth atoms) % 2^32).toNat else o) ∧
        t'.chunks64 = t.chunks64.map (fun o => if f.MediaBehind then ((o + f.growth atoms) % 2^64).toNat else o)) E E' := by
  obtain ⟨s, h1, h2, -⟩ := h.run
  obtain ⟨h3, h4⟩ := put_split_traks (g := if f.MediaBehind then Spec.Trak.shift (f.growth atoms) else id) (atoms := atoms) hs
  refine ⟨s, f.put atoms, _, h1, h2, put_kept h.tables, ?_, h3, h4, ?_⟩
  · intro o n hn hm
    rw [h2]
    exact bytesAt_moved h.tables hm hn
  · refine All2_map_right fun t ht => ?_
    by_cases hm : f.MediaBehind
    · obtain ⟨ext, hmem⟩ := trak_mem (m := f.moov) (by rw [h3]; exact List.mem_append_left _ ht)
      have htab := h.tables hm ext t hmem
      rw [if_pos hm, trak_chunks32 htab, trak_chunks64 htab]
      refine ⟨List.map_congr_left fun o _ => ?_, List.map_congr_left fun o _ => ?_⟩
      · rw [if_pos hm, shiftBy]; omega
      · rw [if_pos hm, shiftBy]
    · rw [if_neg hm]
      refine ⟨?_, ?_⟩ <;> simp [hm]

/-- What becomes of the offset `o`, by C45_exact. -/
def newOffset (f : File) (atoms : List AtomData) (early wide : Bool) (o : Nat) : Nat :=
  if early ∧ f.MediaBehind then ((o + f.growth atoms) % (if wide then 2^64 else 2^32)).toNat else o

/-- **C45**, for which offsets it holds: those into media data in front of `moov` are right if they are not adjusted; those into media data
behind it if they are, and the result can be stored. -/
theorem C45_iff (e : Env) (X : Bytes) (f : File) (atoms : List AtomData) (h : Writable e X f atoms) (early wide : Bool) (o n : Nat) (hn : 0 < n)
    (ho : f.InMdat X.length o n) (hw : o < if wide then 2^62 else 2^32) :
    newOffset f atoms early wide o = movedTo (f.moovPos X.length) (f.growth atoms) o ↔
      f.growth atoms = 0 ∨
      (o < f.moovPos X.length ∧ (early = false ∨ ¬ f.MediaBehind ∨ (wide = false ∧ f.growth atoms % 2^32 = 0))) ∨
      (f.moovPos X.length ≤ o ∧ early = true ∧ (wide = true ∨ o + f.growth atoms < 2^32)) := by
  have he := put_moovEnd (atoms := atoms) h.tables X.length
  have hb : (f.put atoms).moovEnd X.length < 2^62 := by
    have : (X ++ (f.put atoms).ser).length = (f.put atoms).moovEnd X.length + (serL id f.post).length := by
      rw [front_eq, List.length_append, front_length, List.length_append]
      unfold Spec.File.moovEnd
      exact (Nat.add_assoc _ _ _).symm
    have := h.new
    omega
  have hb' : f.moovEnd X.length < 2^62 := by
    have : (X ++ f.ser).length = f.moovEnd X.length + (serL id f.post).length := by
      rw [front_eq, List.length_append, front_length, List.length_append]
      unfold Spec.File.moovEnd
      exact (Nat.add_assoc _ _ _).symm
    have := h.old
    omega
  have hp : f.moovPos X.length ≤ f.moovEnd X.length := Nat.le_add_right _ _
  have hp' : f.moovPos X.length ≤ (f.put atoms).moovEnd X.length := Nat.le_add_right _ _
  unfold newOffset movedTo
  generalize f.growth atoms = g at *
  rcases inMdat_bounds ho with ⟨_, hle⟩ | ⟨hm, hge⟩
  · have h1 : o < f.moovPos X.length := by omega
    rw [if_pos h1]
    by_cases hm : f.MediaBehind
    · cases early <;> cases wide <;> simp [hm] at hw ⊢ <;> omega
    · simp [hm, h1]
  · have h1 : ¬ o < f.moovPos X.length := by omega
    rw [if_neg h1]
    cases early <;> cases wide <;> simp [hm] at hw ⊢ <;> omega

/-- Both kinds of offsets of the example in `C45_refuted_order` and `C45_refuted_sides`, which are not right, and of `fileW`, which are. -/
example : newOffset fileSides atomsW true false 21 ≠ movedTo (fileSides.moovPos 0) (fileSides.growth atomsW) 21 ∧
    newOffset fileSides atomsW false false 21 = movedTo (fileSides.moovPos 0) (fileSides.growth atomsW) 21 ∧
    fileW.InMdat 0 506 3 ∧ newOffset fileW atomsW true false 506 = movedTo (fileW.moovPos 0) (fileW.growth atomsW) 506 ∧
    newOffset fileW atomsW false false 506 ≠ movedTo (fileW.moovPos 0) (fileW.growth atomsW) 506 :=
  ⟨by decide +kernel, by decide +kernel, fileW_in, by decide +kernel, by decide +kernel⟩

/-! ### C19, C20 -/

theorem tupNumber_short (a b c : UInt8) (n : Nat) : tupNumber (tupSetTotal [a, b, c] n) = present (256 * c.toNat) := by
  rw [tupNumber, tupSetTotal, beInt_setBeInt_before _ _ _ _ _ _ (by omega)]
  simp [padTo, beInt, beNat, nonZero, present]
  rw [Nat.mul_comm]

theorem short_iff (v : Bytes) (n : Nat) : tupNumber (tupSetTotal v n) = tupNumber v ↔ ∀ a b c, v = [a, b, c] → c = 0 := by
  constructor
  · rintro h a b c rfl
    rw [tupNumber_short, show tupNumber [a, b, c] = none from rfl] at h
    have : c.toNat = 0 := by
      unfold present at h
      split at h
      · omega
      · exact absurd h (by simp)
    exact UInt8.toNat_inj.mp this
  · intro h
    by_cases hl : v.length = 3
    · match v, hl with
      | [a, b, c], _ =>
        rw [h a b c rfl, tupNumber_short]
        rfl
    · exact tupNumber_setTotal v n hl

/-- **C19**, exactly: `set_total_tracks` keeps the number, unless the value has three bytes and the last of them is not zero. -/
theorem C19_iff (t : Tag) (i : Ident) (m : Nat) (hm : m < 65536) :
    (t.setTotal i m).getNumber i = t.getNumber i ↔ ∀ a b c r, t.bytesOf i = [a, b, c] :: r → c = 0 := by
  have h := (firstBytes_effect t i (fun v => tupSetTotal v m) (.reserved (tupNew 0 m))).1
  rw [← setTotal_eq] at h
  rw [Tag.getNumber, Tag.getNumber, h]
  cases hb : t.bytesOf i with
  | nil => simp [Data.bytes?, tup_new 0 m (by omega) hm, present]
  | cons v r =>
    have := short_iff v m
    simp only [List.head?_cons, Option.bind_some, this, List.cons.injEq]
    exact ⟨fun h a b c r' e => h a b c e.1, fun h a b c e => h a b c r ⟨e, rfl⟩⟩

/-- **C20**, exactly: so does `remove_total_tracks`. -/
theorem C20_iff (t : Tag) (i : Ident) :
    (t.removeTotal i).getNumber i = t.getNumber i ↔ ∀ a b c r, t.bytesOf i = [a, b, c] :: r → c = 0 := by
  have h := (firstBytes_effect t i (fun v => tupSetTotal v 0) (.reserved [])).1
  rw [removeTotal_eq]
  cases hb : t.bytesOf i with
  | nil =>
    have : (t.removeDataOf i).bytesOf i = [] := by simp [Tag.bytesOf, C04_remove]
    simp [Tag.getNumber, hb, this]
  | cons v r =>
    rw [hb] at h
    have h2 := short_iff v 0
    simp only [reduceCtorEq, if_false, Tag.getNumber, h, hb, List.head?_cons, Option.bind_some, h2, List.cons.injEq]
    exact ⟨fun h a b c r' e => h a b c e.1, fun h a b c e => h a b c r ⟨e, rfl⟩⟩

/-- **C20**, exactly: after both parts have been removed, the entry is gone only if there was no byte value. -/
theorem C20_entry_iff (t : Tag) (i : Ident) : (t.removeNumber i).dataOf i = [] ↔ t.bytesOf i = [] := by
  constructor
  · intro h
    by_cases hb : t.bytesOf i = []
    · exact hb
    · exact absurd h (C20_entry_always_remains t i hb).1
  · intro hb
    rw [removeNumber_eq, if_pos hb, C04_remove]
    simp

example : (({ atoms := [⟨.fourcc TRACK_NUMBER, [.reserved [0, 7, 0]]⟩] } : Tag).setTotal trackI 5).getNumber trackI = none := by decide

/-! ### C22, C23 -/

/-- **C22**, exactly: `genre()` is the first of `genres()`, unless an unknown standard genre is followed by a known one; and then only if
the first custom genre happens to have its name. -/
theorem C22_iff (t : Tag) : t.genre = t.genres.head? ↔
    ∀ c r s, t.standardGenres = c :: r → ¬ (1 ≤ c ∧ c ≤ 80) → (r.filterMap stdGenreName).head? = some s →
      (t.stringsOf (.fourcc CUSTOM_GENRE)).head? = some s := by
  simp only [Tag.genre, Tag.genres, Tag.standardGenre, Tag.getString, Tag.getStrings, customGenreI]
  cases hs : t.standardGenres with
  | nil => simp
  | cons c r =>
    by_cases hc : 1 ≤ c ∧ c ≤ 80
    · have hn : (stdGenreName c).isSome := (C56_partial c).1.mpr hc
      obtain ⟨g, hg⟩ := Option.isSome_iff_exists.mp hn
      simp only [List.head?_cons, Option.bind_some, hg, List.filterMap_cons_some hg, List.cons_append, true_iff]
      rintro c' r' s e hc'
      injection e with e1 e2
      exact absurd (e1 ▸ hc) hc'
    · have hn : stdGenreName c = none := by
        cases hg : stdGenreName c with
        | none => rfl
        | some g => exact absurd ((C56_partial c).1.mp (by rw [hg]; rfl)) hc
      simp only [List.head?_cons, Option.bind_some, hn, List.filterMap_cons_none hn, List.cons.injEq]
      cases hf : r.filterMap stdGenreName with
      | nil =>
        refine ⟨fun _ c' r' s e _ hr => ?_, fun _ => rfl⟩
        rw [← e.2, hf] at hr
        exact absurd hr (by simp)
      | cons g gs =>
        refine ⟨fun h c' r' s e _ hr => ?_, fun h => ?_⟩
        · rw [← e.2, hf] at hr
          rw [h]
          exact hr
        · exact h c r g ⟨rfl, rfl⟩ hc (by rw [hf]; rfl)

/-- **C23**, exactly: `take_genre` leaves no custom genre, unless the first standard genre is known and there is a custom genre. -/
theorem C23_iff (t : Tag) (h : t.NoDup) : t.takeGenre.2.stringsOf (.fourcc CUSTOM_GENRE) = [] ↔
    (∀ c, t.standardGenre = some c → ¬ (1 ≤ c ∧ c ≤ 80)) ∨ t.stringsOf (.fourcc CUSTOM_GENRE) = [] := by
  by_cases hs : ∀ c, t.standardGenre = some c → ¬ (1 ≤ c ∧ c ≤ 80)
  · exact ⟨fun _ => .inl hs, fun _ => C23_take_genre_removes_partial t h hs⟩
  · have ⟨c, hc⟩ : ∃ c, t.standardGenre = some c ∧ (1 ≤ c ∧ c ≤ 80) := by
      refine Classical.byContradiction fun hn => hs fun c hc hv => hn ⟨c, hc, hv⟩
    obtain ⟨g, hg⟩ := Option.isSome_iff_exists.mp ((C56_partial c).1.mpr hc.2)
    have : t.takeGenre.2 = t := by
      simp only [Tag.takeGenre, hc.1, Option.bind_some, hg]
    rw [this]
    exact ⟨.inr, fun h => h.resolve_left hs⟩

example : (({} : Tag).setStandardGenre 18 |>.addString (.fourcc CUSTOM_GENRE) ['x']).NoDup ∧
    (({} : Tag).setStandardGenre 18 |>.addString (.fourcc CUSTOM_GENRE) ['x']).takeGenre.2.stringsOf (.fourcc CUSTOM_GENRE) = [['x']] ∧
    (({} : Tag).setStandardGenre 99 |>.addString (.fourcc CUSTOM_GENRE) ['x']).takeGenre.2.stringsOf (.fourcc CUSTOM_GENRE) = [] := by
  decide +kernel

/-! ### C56, C65 -/

/-- **C56**, exactly: nine names are not spelled as in ID3v1; up to case, spaces and punctuation one is different. -/
theorem C56_iff (c : Nat) (h : 1 ≤ c ∧ c ≤ 80) :
    (stdGenreName c = (id3v1[c - 1]?).map String.toList ↔ c ∉ [2, 8, 23, 30, 38, 61, 70, 72, 79]) ∧
    ((stdGenreName c).map normal = (id3v1[c - 1]?).map (fun s => normal s.toList) ↔ c ≠ 61) := by
  have key : ∀ a < 80, (stdGenreName (a + 1) = (id3v1[a]?).map String.toList ↔ a + 1 ∉ [2, 8, 23, 30, 38, 61, 70, 72, 79]) ∧
    ((stdGenreName (a + 1)).map normal = (id3v1[a]?).map (fun s => normal s.toList) ↔ a + 1 ≠ 61) := by decide +kernel
  have := key (c - 1) (by omega)
  rwa [show c - 1 + 1 = c by omega] at this

example : stdGenreName 18 = some "Rock".toList ∧ id3v1[17]? = some "Rock" ∧ stdGenreName 61 = some "Top 41".toList ∧
    id3v1[60]? ≠ some "Top 41" := by decide +kernel

/-- **C65**, exactly: two identifiers have the same text if and only if they are equal or both are freeform identifiers, and mean and name
agree once they have been joined. -/
theorem C65_iff (i j : DataIdent) : i.display = j.display ↔
    i = j ∨ ∃ m n m' n', i = .freeform m n ∧ j = .freeform m' n' ∧ m ++ ':' :: n = m' ++ ':' :: n' := by
  have len : ∀ (f : Fourcc) (m n : Str), f.display ≠ "----:".toList ++ m ++ ":".toList ++ n := by
    intro f m n e
    have := congrArg List.length e
    simp [Fourcc.display, Fourcc.bytes] at this
  constructor
  · intro h
    cases i with
    | fourcc f =>
      cases j with
      | fourcc g => exact .inl (C65_injective_partial _ _ (by simp) (by simp) h)
      | freeform m n => exact absurd h (len f m n)
    | freeform m n =>
      cases j with
      | fourcc g => exact absurd h.symm (len g m n)
      | freeform m' n' =>
        refine .inr ⟨m, n, m', n', rfl, rfl, ?_⟩
        simpa [DataIdent.display] using h
  · rintro (rfl | ⟨m, n, m', n', rfl, rfl, h⟩)
    · rfl
    · simpa [DataIdent.display] using h

/-! ### C52 -/

theorem be32_mod (n : Nat) : num (be32 n) = n % 2^32 := by
  simp only [num, be32, List.foldl_cons, List.foldl_nil, UInt8.toNat_ofNat']
  omega

/-- **C52**, exactly what happens: success is reported in any case. The file is the specified one, and it is well-formed, that is its
sizes are the actual ones, if and only if the sizes of the atoms around the item list fit; a 32 bit size of `moov` is stored modulo
2^32. What is stored for chunk offsets is stated by `C45_exact`. -/
theorem C52_exact (e : Env) (X : Bytes) (f : File) (atoms : List AtomData) (h : Writable e X f atoms) :
    ∃ s, writeTagTo e (X ++ f.ser) X.length atoms = (.ok (), s) ∧ s.file = X ++ (f.put atoms).ser ∧
      ((f.put atoms).WF ↔ f.PutFits atoms) ∧
      (f.moovExt = false → num (bytesAt s.file (f.moovPos X.length) 4) = ((f.put atoms).moov.ser.length + 8) % 2^32) := by
  obtain ⟨s, h1, h2, -⟩ := h.run
  refine ⟨s, h1, h2, ⟨fun hw => ⟨hw.2.1, fun k hk => ⟨(hw.2.2.1 k hk).1, ?_⟩⟩, put_WF h.wf h.tables⟩, fun hx => ?_⟩
  · rintro ext u rfl x hx
    exact ((hw.2.2.1 _ hk).2 x hx).1
  · have hb : (File.moovBox (f.put atoms)).head = be32 ((f.put atoms).moov.ser.length + 8) ++ (cc 'm' 'o' 'o' 'v').bytes := by
      show Box.head ⟨f.moovExt, _, _⟩ = _
      rw [hx]; rfl
    have hs : s.file = (X ++ f.ftypBox.ser ++ serL id f.pre) ++ (be32 ((f.put atoms).moov.ser.length + 8) ++ ((cc 'm' 'o' 'o' 'v').bytes ++
        ((f.put atoms).moov.ser ++ serL id f.post))) := by
      rw [h2]
      show X ++ (f.ftypBox.ser ++ serL id f.pre ++ ((File.moovBox (f.put atoms)).head ++ (f.put atoms).moov.ser) ++ serL id f.post) = _
      rw [hb]
      simp only [List.append_assoc]
    unfold bytesAt
    rw [hs, List.drop_left' (by simp only [Spec.File.moovPos, List.length_append]), List.take_left' (l₁ := be32 _) (i := 4) rfl, be32_mod]

/-- In a file of more than 4 GiB, the size stored is too small. -/
example (N : Nat) (hN : N = 2^31) :
    ∃ s, writeTagTo envBig ([] ++ fileBare.ser) 0 (atomsBig N) = (.ok (), s) ∧ num (bytesAt s.file 8 4) = 141 := by
  obtain ⟨s, h1, -, -, h4⟩ := C52_exact envBig [] fileBare (atomsBig N) (bareBig_writable hN)
  refine ⟨s, h1, ?_⟩
  have := h4 rfl
  rwa [show fileBare.moovPos ([] : Bytes).length = 8 by decide, fileBare_put, moovBig_length hN] at this

/-! ### C63 -/

/-- **C63**, for genres exactly: they are shown unless there is only one, a standard genre that follows an unknown one. -/
theorem C63_genres_iff (esc : Char → Str) (he : ∀ c, '\n' ∉ esc c) (t : Tag) (ht : OneLine t) :
    fieldValues "genre".toList "genres".toList (shown esc t) = t.genres ↔
      ¬ (t.genres.length = 1 ∧ ∃ c r, t.standardGenres = c :: r ∧ ¬ (1 ≤ c ∧ c ≤ 80) ∧ r.filterMap stdGenreName ≠ []) := by
  have hv := display_values he ht (listField "genre".toList "genres".toList t.genres t.genre) (by simp [fields]) listField_unmark
  have hv : fieldValues "genre".toList "genres".toList (shown esc t)
      = (listField "genre".toList "genres".toList t.genres t.genre).body.values := hv
  rw [hv]
  by_cases hl : t.genres.length ≤ 1
  · have h1 : (listField "genre".toList "genres".toList t.genres t.genre).body.values = t.genre.toList := by
      simp only [listField, if_neg (Nat.not_lt.mpr hl)]
      cases t.genre <;> rfl
    have h2 : t.genre.toList = t.genres ↔ t.genre = t.genres.head? := by
      match hg : t.genres, hl with
      | [], _ => cases t.genre <;> simp
      | [x], _ => cases t.genre <;> simp
      | _ :: _ :: _, hl => simp at hl
    rw [h1, h2, C22_iff]
    constructor
    · rintro h ⟨h3, c, r, h4, h5, h6⟩
      obtain ⟨s, q, hs⟩ := List.exists_cons_of_ne_nil h6
      have h7 := h c r s h4 h5 (by rw [hs]; rfl)
      have h8 : t.genres = t.standardGenres.filterMap stdGenreName ++ t.stringsOf (.fourcc CUSTOM_GENRE) := rfl
      rw [h8, h4, List.length_append] at h3
      have h9 : 1 ≤ ((c :: r).filterMap stdGenreName).length := by
        rw [List.filterMap_cons]
        split <;> simp [hs]
      cases hc : t.stringsOf (.fourcc CUSTOM_GENRE) with
      | nil => rw [hc] at h7; cases h7
      | cons y ys => rw [hc] at h3; simp only [List.length_cons] at h3; omega
    · intro h c r s h4 h5 h6
      refine absurd ⟨?_, c, r, h4, h5, ?_⟩ h
      · have h8 : t.genres = t.standardGenres.filterMap stdGenreName ++ t.stringsOf (.fourcc CUSTOM_GENRE) := rfl
        have h9 : 1 ≤ t.genres.length := by
          rw [h8, h4, List.length_append, List.filterMap_cons]
          cases hr : r.filterMap stdGenreName with
          | nil => rw [hr] at h6; cases h6
          | cons y ys => split <;> simp only [List.length_cons] <;> omega
        omega
      · intro hr; rw [hr] at h6; cases h6
  · refine iff_of_true (listField_values fun h => absurd h hl) fun h => ?_
    omega

/-- Two standard genres, the first unknown: not shown; with a custom genre in addition: all are shown. -/
example : (({} : Tag).setStandardGenres [0, 1]).genres.length = 1 ∧
    ((({} : Tag).setStandardGenres [0, 1]).addString (.fourcc CUSTOM_GENRE) "x".toList).genres = ["Blues".toList, "x".toList] ∧
    ((({} : Tag).setStandardGenres [0, 1]).addString (.fourcc CUSTOM_GENRE) "x".toList).standardGenres = [0, 1] := by decide +kernel

end Mp4.Props
