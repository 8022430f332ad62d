import Verif.Props.Write
import Verif.Props.Errors
import Verif.Proof.Fail
import Verif.Proof.AnyBuf
/-
C45, C49–C52, C55, C58: chunk offsets, failures, crashes and cursors.
-/
namespace Mp4.Props
open Mp4 Spec

/-! ### C45 -/

/-- **C45**, what holds: if media data lies on one side of `moov` only, no track follows the last `udta` and no 32 bit
offset overflows, every chunk offset into an `mdat` designates the same bytes as before. (Tracks and offsets correspond
by position.) Missing: the other files, for which the claim is false (`C45_refuted_order`, `C45_refuted_sides`,
`C45_refuted_wrap`). -/
theorem C45_partial (e : Env) (X : Bytes) (f : File) (atoms : List AtomData) (h : Writable e X f atoms)
    (hside : ¬ (f.MediaFront ∧ f.MediaBehind)) (hfirst : f.MediaBehind → f.moov.TraksFirst)
    (h32 : f.MediaBehind → ∀ t ∈ f.moov.traks, ∀ o ∈ t.chunks32, shiftBy (f.growth atoms) o < 2^32) :
    ∃ s, ∃ f' : File, writeTagTo e (X ++ f.ser) X.length atoms = (.ok (), s) ∧ s.file = X ++ f'.ser ∧
      MoovKept f.moov f'.moov ∧
      All2 (fun t t' => All2 (fun o o' => ∀ n, f.InMdat X.length o n → bytesAt s.file o' n = bytesAt (X ++ f.ser) o n)
        t.chunks t'.chunks) f.moov.traks f'.moov.traks := by
  obtain ⟨s, h1, h2, -⟩ := h.run
  refine ⟨s, f.put atoms, h1, h2, put_kept h.tables, ?_⟩
  rw [h2]
  by_cases hm : f.MediaBehind
  · have ht : (f.put atoms).moov.traks = f.moov.traks.map (Spec.Trak.shift (f.growth atoms)) := by
      show (f.moov.put _ atoms).traks = _
      rw [if_pos hm, put_traks (.inl (hfirst hm))]
    rw [ht]
    refine All2_map_right fun t htr => ?_
    obtain ⟨ext, hmem⟩ := trak_mem htr
    have htab := h.tables hm ext t hmem
    rw [trak_chunks htab (h32 hm t htr)]
    refine All2_map_right fun o ho n hn => ?_
    rcases inMdat_bounds hn with ⟨hf, _⟩ | ⟨_, hge⟩
    · exact absurd ⟨hf, hm⟩ hside
    · exact bytesAt_behind h.tables hge (tables_chunks_lt htab o ho) h.old h.new
  · have ht : (f.put atoms).moov.traks = f.moov.traks.map id := by
      show (f.moov.put _ atoms).traks = _
      rw [if_neg hm]
      exact put_traks (.inr fun _ => rfl)
    rw [ht]
    refine All2_map_right fun t _ => ?_
    show All2 _ t.chunks t.chunks
    rw [← List.map_id t.chunks]
    have : ∀ o ∈ t.chunks, ∀ n, f.InMdat X.length o n → bytesAt (X ++ (f.put atoms).ser) (id o) n = bytesAt (X ++ f.ser) o n := by
      intro o _ n hn
      rcases inMdat_bounds hn with ⟨_, hle⟩ | ⟨hb, _⟩
      · exact bytesAt_front rfl rfl hle
      · exact absurd hb hm
    have key := All2_map_right (R := fun o o' => ∀ n, f.InMdat X.length o n →
      bytesAt (X ++ (f.put atoms).ser) o' n = bytesAt (X ++ f.ser) o n) (g := id) this
    rw [List.map_id] at key ⊢
    exact key

theorem fileW_traksFirst : fileW.moov.TraksFirst := by
  intro A ext u B hm hB
  have hlen : A.length + 1 + B.length = 4 := by
    have := congrArg List.length hm
    simp [fileW] at this
    omega
  have hA : A.length = 3 := by
    match A, hm, hlen with
    | [], hm, _ => simp [fileW] at hm
    | [_], hm, _ => simp [fileW] at hm
    | [_, _], hm, _ => simp [fileW] at hm
    | [_, _, _], _, _ => rfl
    | _ :: _ :: _ :: _ :: _, _, hl => simp at hl; omega
  have : B = [] := List.eq_nil_of_length_eq_zero (by omega)
  rw [this]; rfl

/-- The hypotheses hold of the example, whose offsets are adjusted: the bytes are those of `mdat`. -/
example : Writable env0 [] fileW atomsW ∧ ¬ (fileW.MediaFront ∧ fileW.MediaBehind) ∧ fileW.moov.TraksFirst ∧
    fileW.MediaBehind ∧ (∀ t ∈ fileW.moov.traks, ∀ o ∈ t.chunks32, shiftBy (fileW.growth atomsW) o < 2^32) :=
  ⟨fileW_writable, fun ⟨⟨b, hb, hfc⟩, _⟩ => by
    simp only [fileW, fileEx, List.mem_singleton] at hb
    subst hb
    exact absurd hfc (by decide), fileW_traksFirst, by decide +kernel, by decide +kernel⟩
example : fileW.moov.traks.map Trak.chunks = [[], [506, 507]] ∧ bytesAt fileW.ser 506 3 = [1, 2, 3] ∧ bytesAt fileW.ser 507 2 = [2, 3] ∧
    (fileW.put atomsW).moov.traks.map Trak.chunks = [[], [460, 461]] ∧
    bytesAt (writeTagTo env0 fileW.ser 0 atomsW).2.file 460 3 = [1, 2, 3] ∧
    bytesAt (writeTagTo env0 fileW.ser 0 atomsW).2.file 461 2 = [2, 3] := by decide +kernel

/-- The claim fails for a file: it is written successfully, but a chunk offset of one of its tracks, which designated
bytes of an `mdat`, afterwards designates other bytes. -/
def Loses (e : Env) (f : File) (atoms : List AtomData) : Prop :=
  ∃ s, ∃ f' : File, ∃ i j o o' n : Nat, ∃ t t' : Spec.Trak, writeTagTo e f.ser 0 atoms = (.ok (), s) ∧ s.file = f'.ser ∧ f'.WF ∧
    f.moov.traks[i]? = some t ∧ t.chunks[j]? = some o ∧ f.InMdat 0 o n ∧
    f'.moov.traks[i]? = some t' ∧ t'.chunks[j]? = some o' ∧ bytesAt s.file o' n ≠ bytesAt f.ser o n

instance : DecidableEq Spec.Mdia := inferInstance
instance : DecidableEq Spec.Trak := inferInstanceAs (DecidableEq (List (Kid Spec.Mdia)))

/-- A file with the track behind the user data. -/
def fileOrder : File :=
  { fileW with moov := [.udta false [.node false metaEx], .trak false (trakW 452)] }

/-- A file with media data on both sides; the chunk offset designates the first. -/
def fileSides : File :=
  { fileW with pre := [⟨false, cc 'm' 'd' 'a' 't', [1, 2, 3, 4]⟩], moov := [.trak false (trakW 20), .udta false [.node false metaEx]] }

theorem fileOrder_run : (writeTagTo env0 fileOrder.ser 0 atomsW).1 = .ok () ∧
    (writeTagTo env0 fileOrder.ser 0 atomsW).2.file = (fileOrder.put atomsW).ser ∧ (fileOrder.put atomsW).WF := by decide +kernel

theorem fileOrder_chunks : fileOrder.moov.traks[0]? = some (trakW 452) ∧ (trakW 452).chunks[0]? = some 452 ∧
    (fileOrder.put atomsW).moov.traks[0]? = some (trakW 452) ∧ (trakW 452).chunks[0]? = some (452) ∧
    bytesAt (fileOrder.put atomsW).ser (452) 3 ≠ bytesAt fileOrder.ser 452 3 :=
  ⟨rfl, by decide +kernel, by decide +kernel, by decide +kernel, by decide +kernel⟩

theorem fileOrder_in : fileOrder.InMdat 0 452 3 :=
  .inr ⟨[], ⟨false, cc 'm' 'd' 'a' 't', [1, 2, 3]⟩, [], rfl, rfl, by decide +kernel, by decide +kernel⟩

theorem fileOrder_writable : Writable env0 [] fileOrder atomsW where
  wf := by decide +kernel
  fit := ⟨by decide +kernel, by decide +kernel, by decide +kernel⟩
  store := fun a ha => (atomsW_store a ha).1
  old := by decide +kernel
  new := by decide +kernel
  pos := by decide +kernel
  tables := fun _ => by
    intro ext t h
    simp only [fileOrder, List.mem_cons, List.not_mem_nil, or_false, reduceCtorEq, false_or, MoovKid.trak.injEq] at h
    obtain ⟨rfl, rfl⟩ := h
    exact trakW_tables (by decide)

/-- **C45 is false**: tracks behind the user data are not adjusted. -/
theorem C45_refuted_order : Writable env0 [] fileOrder atomsW ∧ Loses env0 fileOrder atomsW := by
  obtain ⟨h1, h2, h3⟩ := fileOrder_run
  obtain ⟨c1, c2, c3, c4, c5⟩ := fileOrder_chunks
  generalize hr : writeTagTo env0 fileOrder.ser 0 atomsW = r at h1 h2
  refine ⟨fileOrder_writable, r.2, _, _, _, _, _, _, _, _, hr.trans (Prod.ext h1 rfl), h2, h3, c1, c2, fileOrder_in, c3, c4, ?_⟩
  rw [h2]
  exact c5

theorem fileSides_run : (writeTagTo env0 fileSides.ser 0 atomsW).1 = .ok () ∧
    (writeTagTo env0 fileSides.ser 0 atomsW).2.file = (fileSides.put atomsW).ser ∧ (fileSides.put atomsW).WF := by decide +kernel

theorem fileSides_chunks : fileSides.moov.traks[0]? = some (trakW 20) ∧ (trakW 20).chunks[1]? = some 21 ∧
    (fileSides.put atomsW).moov.traks[0]? = some (Trak.shift (fileSides.growth atomsW) (trakW 20)) ∧ (Trak.shift (fileSides.growth atomsW) (trakW 20)).chunks[1]? = some (shiftBy (fileSides.growth atomsW) 21) ∧
    bytesAt (fileSides.put atomsW).ser (shiftBy (fileSides.growth atomsW) 21) 2 ≠ bytesAt fileSides.ser 21 2 :=
  ⟨rfl, by decide +kernel, by decide +kernel, by decide +kernel, by decide +kernel⟩

theorem fileSides_in : fileSides.InMdat 0 21 2 :=
  .inl ⟨[], ⟨false, cc 'm' 'd' 'a' 't', [1, 2, 3, 4]⟩, [], rfl, rfl, by decide +kernel, by decide +kernel⟩

theorem fileSides_writable : Writable env0 [] fileSides atomsW where
  wf := by decide +kernel
  fit := ⟨by decide +kernel, by decide +kernel, by decide +kernel⟩
  store := fun a ha => (atomsW_store a ha).1
  old := by decide +kernel
  new := by decide +kernel
  pos := by decide +kernel
  tables := fun _ => by
    intro ext t h
    simp only [fileSides, List.mem_cons, List.not_mem_nil, or_false, reduceCtorEq, false_or, MoovKid.trak.injEq] at h
    obtain ⟨rfl, rfl⟩ := h
    exact trakW_tables (by decide)

/-- **C45 is false**: offsets into media data in front of `moov` are adjusted, if there is any behind. -/
theorem C45_refuted_sides : Writable env0 [] fileSides atomsW ∧ Loses env0 fileSides atomsW := by
  obtain ⟨h1, h2, h3⟩ := fileSides_run
  obtain ⟨c1, c2, c3, c4, c5⟩ := fileSides_chunks
  generalize hr : writeTagTo env0 fileSides.ser 0 atomsW = r at h1 h2
  refine ⟨fileSides_writable, r.2, _, _, _, _, _, _, _, _, hr.trans (Prod.ext h1 rfl), h2, h3, c1, c2, fileSides_in, c3, c4, ?_⟩
  rw [h2]
  exact c5

/-- A file with more than 4 GiB of media data (`N` bytes) and a 32 bit offset to its end; writing makes `moov` larger. -/
def fileWrap (N : Nat) : File where
  ftypExt := false
  ftyp := ['M', '4', 'A', ' ']
  pre := []
  moovExt := false
  moov := [.trak false (trakW (2^32 - 1)), .udta false []]
  post := [⟨true, cc 'm' 'd' 'a' 't', List.replicate N 7⟩]

/-- The movie atom after writing `atomsW`. -/
def moovWrap : Spec.Moov := (fileWrap 0).moov.put (Trak.shift ((fileWrap 0).growth atomsW)) atomsW

theorem fileWrap_put (N : Nat) : (fileWrap N).put atomsW = { fileWrap N with moov := moovWrap } := by
  have h : (fileWrap N).MediaBehind := ⟨_, List.mem_singleton.mpr rfl, rfl⟩
  unfold File.put
  rw [if_pos h]
  rfl

theorem fileWrap_length (N : Nat) : (fileWrap N).ser.length = (fileWrap 0).ser.length + N ∧
    ((fileWrap N).put atomsW).ser.length = ((fileWrap 0).put atomsW).ser.length + N := by
  rw [fileWrap_put, fileWrap_put]
  simp only [File.ser, fileWrap, File.ftypBox, File.moovBox, serL_cons, serL_nil, Box.ser_length, List.length_append,
    List.length_replicate, id, Box.headLen, List.length_nil]
  omega

theorem fileWrap_lengths : (fileWrap 0).ser.length = 246 ∧ ((fileWrap 0).put atomsW).ser.length = 397 ∧ (fileWrap 0).growth atomsW = 151 := by
  decide +kernel

/-- An environment with enough fuel for the large file. -/
def envBig : Env := { env0 with fuel := 2^40 }

theorem fileWrap_fits : (fileWrap 0).ftypBox.Fits ∧ (fileWrap 0).moovBox.Fits ∧ (fileWrap 0).moov.WF ∧
    (⟨false, cc 'm' 'o' 'o' 'v', moovWrap.ser⟩ : Box).Fits ∧ moovWrap.WF := by decide +kernel

theorem fileWrap_WF (N : Nat) : (fileWrap N).WF := by
  refine ⟨fileWrap_fits.1, fileWrap_fits.2.1, fileWrap_fits.2.2.1, by simp [fileWrap], ?_⟩
  intro b hb
  rw [List.mem_singleton.mp hb]
  exact ⟨fun h => absurd h (show true ≠ false by decide), show cc 'm' 'd' 'a' 't' ≠ cc 'm' 'o' 'o' 'v' by decide⟩

theorem fileWrap_put_WF (N : Nat) : ((fileWrap N).put atomsW).WF := by
  rw [fileWrap_put]
  have h := fileWrap_WF N
  obtain ⟨-, -, -, h1, h2⟩ := fileWrap_fits
  generalize moovWrap = m at h1 h2
  exact ⟨h.1, h1, h2, h.2.2.2⟩

theorem fileWrap_writable {N : Nat} (hN : N = 2^32) : Writable envBig [] (fileWrap N) atomsW := by
  have hl := fileWrap_length N
  have hl0 := fileWrap_lengths
  refine ⟨fileWrap_WF N, ⟨?_, ?_, ?_⟩, fun a ha => (atomsW_store a ha).1, ?_, ?_, ?_, fun _ => ?_⟩
  · show (fileWrap N).ser.length ≤ 2^63 - 1; omega
  · show (fileWrap N).ser.length < 2^63; omega
  · show (fileWrap N).ser.length < 2^40; omega
  · show (fileWrap N).ser.length < 2^62; omega
  · show ((fileWrap N).put atomsW).ser.length < 2^62; omega
  · show ((fileWrap N).put atomsW).ser.length ≤ 2^63 - 1; omega
  · intro ext t h
    simp only [fileWrap, List.mem_cons, List.not_mem_nil, or_false, reduceCtorEq, MoovKid.trak.injEq] at h
    obtain ⟨rfl, rfl⟩ := h
    exact trakW_tables (by decide)

theorem fileWrap_in {N : Nat} (hN : N = 2^32) : (fileWrap N).InMdat 0 (2^32 - 1) 1 := by
  refine .inr ⟨[], _, [], rfl, rfl, ?_, ?_⟩
  · have : 0 + (fileWrap N).ftypBox.ser.length + (serL id (fileWrap N).pre).length + (fileWrap N).moovBox.ser.length +
      (serL id ([] : List Box)).length = 230 := by
      show 0 + (fileWrap 0).ftypBox.ser.length + (serL id (fileWrap 0).pre).length + (fileWrap 0).moovBox.ser.length +
        (serL id ([] : List Box)).length = 230
      decide +kernel
    omega
  · have h2 : (Box.ser ⟨true, cc 'm' 'd' 'a' 't', List.replicate N 7⟩).length = 16 + N := by
      rw [Box.ser_length, List.length_replicate]; rfl
    omega

theorem moovWrap_chunks : (fileWrap 0).moov.traks[0]? = some (trakW (2^32 - 1)) ∧ (trakW (2^32 - 1)).chunks[0]? = some (2^32 - 1) ∧
    moovWrap.traks[0]? = some (Trak.shift 151 (trakW (2^32 - 1))) ∧ (Trak.shift 151 (trakW (2^32 - 1))).chunks[0]? = some 150 :=
  ⟨rfl, by decide +kernel, by decide +kernel, by decide +kernel⟩

theorem fileWrap_bytes {N : Nat} (hN : N = 2^32) : bytesAt (fileWrap N).ser (2^32 - 1) 1 = [7] ∧
    bytesAt ((fileWrap N).put atomsW).ser 150 1 ≠ [7] := by
  constructor
  · have hP : (fileWrap N).ser = ((fileWrap 0).ser.take 230 ++ Box.head ⟨true, cc 'm' 'd' 'a' 't', List.replicate N 7⟩) ++ List.replicate N 7 := by
      rw [show (fileWrap 0).ser.take 230 = (fileWrap 0).ftypBox.ser ++ (fileWrap 0).moovBox.ser by decide +kernel]
      have : ∀ (A B : Bytes) (b : Box), A ++ serL id [] ++ B ++ serL id [b] = A ++ B ++ b.head ++ b.body := by
        intro A B b
        simp only [serL_cons, serL_nil, List.append_nil, id, Box.ser, List.append_assoc]
      exact (this _ _ _).trans (by simp only [List.append_assoc]; rfl)
    have hPl : ((fileWrap 0).ser.take 230 ++ Box.head ⟨true, cc 'm' 'd' 'a' 't', List.replicate N 7⟩).length = 246 := by
      have h1 : ((fileWrap 0).ser.take 230).length = 230 := by decide +kernel
      rw [List.length_append, h1]
      rfl
    rw [hP, bytesAt, List.drop_append, List.drop_of_length_le (by omega), hPl, List.nil_append, List.drop_replicate, List.take_replicate]
    rw [show min 1 (N - (2^32 - 1 - 246)) = 1 by omega]
    rfl
  · rw [fileWrap_put]
    have : ({ fileWrap N with moov := moovWrap } : File).ser =
        ((fileWrap 0).ftypBox.ser ++ Box.ser ⟨false, cc 'm' 'o' 'o' 'v', moovWrap.ser⟩) ++ serL id (fileWrap N).post := by
      generalize moovWrap = m
      simp only [File.ser, List.append_assoc]
      rfl
    rw [this, bytesAt]
    have hd : ∀ (P Q : Bytes), 151 ≤ P.length → ((P ++ Q).drop 150).take 1 = (P.drop 150).take 1 := by
      intro P Q hP
      rw [List.drop_append_of_le_length (by omega), List.take_append_of_le_length (by rw [List.length_drop]; omega)]
    rw [hd _ _ (by decide +kernel)]
    decide +kernel

/-- **C45 is false**: 32 bit offsets overflow silently. -/
theorem C45_refuted_wrap : ∃ f, Writable envBig [] f atomsW ∧ Loses envBig f atomsW := by
  obtain ⟨N, hN⟩ : ∃ N : Nat, N = 2^32 := ⟨_, rfl⟩
  obtain ⟨s, h1, h2, -⟩ := (fileWrap_writable hN).run
  obtain ⟨c1, c2, c3, c4⟩ := moovWrap_chunks
  refine ⟨fileWrap N, fileWrap_writable hN, s, (fileWrap N).put atomsW, 0, 0, _, _, 1, _, _, h1, h2, fileWrap_put_WF N, c1, c2, fileWrap_in hN,
    by rw [fileWrap_put]; exact c3, c4, ?_⟩
  rw [h2]
  obtain ⟨b1, b2⟩ := fileWrap_bytes hN
  rw [b1]
  exact b2

/-! ### C50 and C58 -/

/-- What of a system call may have happened when the process is stopped: a prefix of the bytes has been written. -/
inductive Partly : Op → Bytes → Bytes → Prop
  | write (F : Bytes) (off : Nat) (b : Bytes) (j : Nat) : Partly (.write off b) F (Op.apply F (.write off (b.take j)))
  | before (F : Bytes) (n : Nat) : Partly (.setLen n) F F
  | after (F : Bytes) (n : Nat) : Partly (.setLen n) F (Op.apply F (.setLen n))

/-- The states of a file in which a process that issues some system calls can leave it when it is stopped. -/
inductive Crash (F : Bytes) (calls : List Op) : Bytes → Prop
  | done : Crash F calls (calls.foldl Op.apply F)
  | during (A : List Op) (op : Op) (B : List Op) (G : Bytes) : calls = A ++ op :: B → Partly op (A.foldl Op.apply F) G → Crash F calls G

theorem partly_take {op F G p} (h : Partly op F G) (h1 : p ≤ op.lo) (h2 : p ≤ F.length) : G.take p = F.take p := by
  cases h with
  | write _ off b j => exact (apply_take (op := .write off (b.take j)) h1 h2).1
  | before => rfl
  | after _ n => exact (apply_take (op := .setLen n) h1 h2).1

/-- **C50.** However far writing has come, nothing in front of `moov` has changed. (System calls are only issued when the
whole search has succeeded. Together they have the effect of the write.) -/
theorem C50_crash (e : Env) (X : Bytes) (f : File) (atoms : List AtomData) (h : Writable e X f atoms) :
    ∃ s, writeTagTo e (X ++ f.ser) X.length atoms = (.ok (), s) ∧ s.trace.foldl Op.apply (X ++ f.ser) = s.file ∧
      ∀ G, Crash (X ++ f.ser) s.trace G →
        G.take (X ++ f.ftypBox.ser ++ serL id f.pre).length = X ++ f.ftypBox.ser ++ serL id f.pre := by
  obtain ⟨s, h1, -, -, -, h2, h3⟩ := h.run
  refine ⟨s, h1, h3, ?_⟩
  have hp := front_length f X
  have ht : (X ++ f.ser).take (X ++ f.ftypBox.ser ++ serL id f.pre).length = X ++ f.ftypBox.ser ++ serL id f.pre := by
    rw [front_eq, List.take_left]
  have hle : (X ++ f.ftypBox.ser ++ serL id f.pre).length ≤ (X ++ f.ser).length := by
    rw [front_eq f]; simp only [List.length_append]; omega
  generalize X ++ f.ftypBox.ser ++ serL id f.pre = front at hp ht hle
  rw [← hp] at h2
  intro G hG
  cases hG with
  | done => exact (foldl_take h2 hle).1.trans ht
  | during A op B G hc hG =>
    rw [hc] at h2
    obtain ⟨k1, k2⟩ := foldl_take (ops := A) (fun o ho => h2 o (by simp [ho])) hle
    exact (partly_take hG (h2 op (by simp)) k2).trans (k1.trans ht)

/-- After three of nine calls: the file is neither the old nor the new one, its front is the old one. -/
example : let s := (writeTagTo env0 fileW.ser 0 atomsW).2
    let G := (s.trace.take 3).foldl Op.apply fileW.ser
    G ≠ fileW.ser ∧ G ≠ s.file ∧ s.trace.length = 9 ∧ G.take 29 = fileW.ser.take 29 ∧
      (fileW.ftypBox.ser ++ serL id fileW.pre).length = 29 := by decide +kernel

/-- **C58**, what holds: media data in front of `moov` survives at its place. Missing: media data behind `moov`, for which the
claim is false (`C58_refuted`). -/
theorem C58_partial (e : Env) (X : Bytes) (f : File) (atoms : List AtomData) (h : Writable e X f atoms) (hb : ¬ f.MediaBehind) :
    ∃ s, writeTagTo e (X ++ f.ser) X.length atoms = (.ok (), s) ∧ ∀ G, Crash (X ++ f.ser) s.trace G →
      ∀ o n, f.InMdat X.length o n → bytesAt G o n = bytesAt (X ++ f.ser) o n := by
  obtain ⟨s, h1, -, h3⟩ := C50_crash e X f atoms h
  refine ⟨s, h1, fun G hG o n hn => ?_⟩
  rcases inMdat_bounds hn with ⟨_, hle⟩ | ⟨hb', _⟩
  · have hp := front_length f X
    have key : ∀ H : Bytes, bytesAt H o n = bytesAt (H.take (f.moovPos X.length)) o n := by
      intro H
      rw [bytesAt, bytesAt, List.drop_take, List.take_take, Nat.min_eq_left (by omega)]
    rw [key G, key (X ++ f.ser), ← hp, h3 G hG, front_eq f, List.take_left]
  · exact absurd hb' hb

/-- `fileW` with the media data in front of `moov`. -/
def fileFront : File := { fileW with pre := [⟨false, cc 'm' 'd' 'a' 't', [1, 2, 3]⟩], post := [] }

theorem fileFront_writable : Writable env0 [] fileFront atomsW where
  wf := by decide +kernel
  fit := ⟨by decide +kernel, by decide +kernel, by decide +kernel⟩
  store := fun a ha => (atomsW_store a ha).1
  old := by decide +kernel
  new := by decide +kernel
  pos := by decide +kernel
  tables := fun _ => fileW_tables

/-- Media data in front of `moov`: the hypotheses hold, the trace is not empty. -/
example : Writable env0 [] fileFront atomsW ∧ ¬ fileFront.MediaBehind ∧ fileFront.InMdat 0 20 3 ∧
    (writeTagTo env0 fileFront.ser 0 atomsW).2.trace.length = 6 :=
  ⟨fileFront_writable, by decide +kernel, .inl ⟨[], ⟨false, cc 'm' 'd' 'a' 't', [1, 2, 3]⟩, [], rfl, rfl, by decide +kernel, by decide +kernel⟩,
   by decide +kernel⟩

theorem fileW_in : fileW.InMdat 0 506 3 :=
  .inr ⟨[], ⟨false, cc 'm' 'd' 'a' 't', [1, 2, 3]⟩, [], rfl, rfl, by decide +kernel, by decide +kernel⟩

/-- **C58 is false**: when the process is stopped after the file has been shortened, the media data, which was behind `moov`, is
nowhere in the file. -/
theorem C58_refuted : Writable env0 [] fileW atomsW ∧ fileW.InMdat 0 506 3 ∧
    ∃ s G, writeTagTo env0 fileW.ser 0 atomsW = (.ok (), s) ∧ Crash fileW.ser s.trace G ∧ ∀ o, bytesAt G o 3 ≠ bytesAt fileW.ser 506 3 := by
  have key : (writeTagTo env0 fileW.ser 0 atomsW).1 = .ok () ∧
      ((writeTagTo env0 fileW.ser 0 atomsW).2.trace.take 5 ++ .setLen 463 :: (writeTagTo env0 fileW.ser 0 atomsW).2.trace.drop 6
        = (writeTagTo env0 fileW.ser 0 atomsW).2.trace) ∧
      (Op.apply (((writeTagTo env0 fileW.ser 0 atomsW).2.trace.take 5).foldl Op.apply fileW.ser) (.setLen 463)).length = 463 ∧
      ∀ o < 463, bytesAt (Op.apply (((writeTagTo env0 fileW.ser 0 atomsW).2.trace.take 5).foldl Op.apply fileW.ser) (.setLen 463)) o 3
        ≠ bytesAt fileW.ser 506 3 := by decide +kernel
  generalize hr : writeTagTo env0 fileW.ser 0 atomsW = r at key
  obtain ⟨k1, k2, k3, k4⟩ := key
  have hr' : r = (.ok (), r.2) := Prod.ext k1 rfl
  refine ⟨fileW_writable, fileW_in, r.2, _, hr', .during (r.2.trace.take 5) (.setLen 463) (r.2.trace.drop 6) _ k2.symm
    (.after _ _), fun o => ?_⟩
  by_cases ho : o < 463
  · exact k4 o ho
  · rw [bytesAt, List.drop_of_length_le (by omega)]
    decide +kernel

/-! ### C51 -/

/-- **C51.** Neither the capacity of the buffer nor the positions where reading left the cursor matter. -/
theorem C51_buffering (e : Env) (cap : Nat) (rcur : Nat → Nat) (X : Bytes) (f : File) (atoms : List AtomData) (h : Writable e X f atoms) :
    ∃ s s', writeTagTo e (X ++ f.ser) X.length atoms = (.ok (), s) ∧
      writeTagTo { e with cap := cap, rcur := rcur } (X ++ f.ser) X.length atoms = (.ok (), s') ∧ s.file = s'.file := by
  obtain ⟨s, h1, h2, -⟩ := h.run
  have h' : Writable { e with cap := cap, rcur := rcur } X f atoms := ⟨h.wf, ⟨h.fit.1, h.fit.2, h.fit.3⟩, h.store, h.old, h.new, h.pos, h.tables⟩
  obtain ⟨s', h1', h2', -⟩ := h'.run
  exact ⟨s, s', h1, h1', h2.trans h2'.symm⟩

/-- **C51**, for every file and tag: the outcome, also an error or a panic, and what is in the file afterwards do not depend on them, if the
buffer has room for one size field (`BufWriter::new` gives it 8192 bytes). -/
theorem C51_any (e : Env) (cap : Nat) (rcur : Nat → Nat) (F : Bytes) (pos : Nat) (t : Tag) (h : 8 < e.cap) (h' : 8 < cap) :
    writeTag { e with cap := cap, rcur := rcur } F pos t = writeTag e F pos t := by
  obtain ⟨h1, h2⟩ := writeTagTo_kin (e := e) (e' := { e with cap := cap, rcur := rcur }) ⟨rfl, rfl, rfl⟩ h h' F pos t.atoms
  exact Prod.ext h1 h2

/-- The count of the second table of `fileW` is wrong: the first one has been adjusted when that is found, whatever the buffer. -/
example : let F := fileW.ser.set 265 255
    (writeTagTo env0 F 0 atomsW).1 = .err .parsing ∧ (writeTagTo env0 F 0 atomsW).2.file ≠ F ∧
    (writeTagTo { env0 with cap := 9, rcur := fun n => 7 * n } F 0 atomsW).2.file = (writeTagTo env0 F 0 atomsW).2.file := by decide +kernel

/-- The sequences of system calls differ. -/
example : (writeTagTo env0 fileW.ser 0 atomsW).2.trace.length = 9 ∧
    (writeTagTo { env0 with cap := 3, rcur := fun n => 7 * n } fileW.ser 0 atomsW).2.trace.length = 37 := by decide +kernel

/-! ### C55 -/

theorem parseFtyp_end (e : Env) (F : Bytes) : parseFtyp e F F.length = .err .io := by
  have h : parseHead e F F.length = .err .io := by
    rw [parseHead, P.bind_err]
    rw [readU32, P.bind_err]
    rw [readExact, if_neg (by omega)]
  rw [parseFtyp, P.bind_err h]

/-- **C55 is false** for all files: the cursor is left at the end of the file, so that a further operation on the same handle
fails. -/
theorem C55_refuted (e : Env) (X : Bytes) (f : File) (atoms atoms' : List AtomData) (h : Writable e X f atoms) :
    ∃ s, writeTagTo e (X ++ f.ser) X.length atoms = (.ok (), s) ∧ readTag e s.file s.cur = .err .io ∧
      (writeTagTo e s.file s.cur atoms').1 = .err .io := by
  obtain ⟨s, h1, -, -, h2, -⟩ := h.run
  refine ⟨s, h1, ?_, ?_⟩
  · rw [h2, readTag, readTagP, P.bind_err (parseFtyp_end e s.file)]; rfl
  · have : preparePhase atoms' e s.file s.file.length = .err .io := by
      rw [preparePhase, P.bind_err]
      rw [findTop, P.bind_err (parseFtyp_end e s.file)]
    rw [h2, writeTagTo, this]

/-- **C55**, what holds: after rewinding to where the file starts, a further write behaves as if it were the only one, on the
new file. Missing: operations without rewinding, which always fail (`C55_refuted`). -/
theorem C55_partial (e : Env) (X : Bytes) (f : File) (A B : List AtomData) (h : Rewritable e X f A) (hB : Writable e X f B)
    (hf : SameForm A B) :
    ∃ s s', writeTagTo e (X ++ f.ser) X.length A = (.ok (), s) ∧ writeTagTo e s.file X.length B = (.ok (), s') ∧
      s'.file = (writeTagTo e (X ++ f.ser) X.length B).2.file := by
  obtain ⟨s, h1, h2, -⟩ := h.toWritable.run
  obtain ⟨s', h1', h2', -⟩ := (h.again hB hf).run
  obtain ⟨s'', h1'', h2'', -⟩ := hB.run
  rw [← h2] at h1'
  refine ⟨s, s', h1, h1', ?_⟩
  rw [h1'', h2', h2'', put_put h.tables hf]

example : (readTag env0 (writeTagTo env0 fileW.ser 0 atomsW).2.file 463) = .err .io ∧ (writeTagTo env0 fileW.ser 0 atomsW).2.cur = 463 := by
  decide +kernel

/-! ### C52 -/

theorem last_sub {α} {g h : α → List Nat} {l : List α} (H : ∀ a, ∀ o ∈ g a, o ∈ h a) (o : Nat) (ho : o ∈ ((l.getLast?).map g).getD []) :
    o ∈ ((l.getLast?).map h).getD [] := by
  cases hl : l.getLast? with
  | none => rw [hl] at ho; exact absurd ho (by simp)
  | some a => rw [hl] at ho; exact H a o ho

theorem trak_chunks32_sub (t : Spec.Trak) : ∀ o ∈ t.chunks32, o ∈ t.chunks :=
  last_sub fun _ => last_sub fun _ => last_sub fun _ _ ho => List.mem_append_left _ ho

/-- **C52**, what holds: if no number overflows (`PutFits`: sizes, and the hypothesis about 32 bit offsets), the sizes stored are
the actual ones (the result is a well-formed file) and the offsets are the old ones plus the growth, as numbers. Missing: that
otherwise an error is reported, which is false (`C52_refuted`, `C52_refuted_size`). -/
theorem C52_partial (e : Env) (X : Bytes) (f : File) (atoms : List AtomData) (h : Rewritable e X f atoms)
    (hb : f.MediaBehind) (hfirst : f.moov.TraksFirst)
    (hr : ∀ t ∈ f.moov.traks, (∀ o ∈ t.chunks32, (o : Int) + f.growth atoms < 2^32) ∧ ∀ o ∈ t.chunks, 0 ≤ (o : Int) + f.growth atoms) :
    ∃ s, ∃ f' : File, writeTagTo e (X ++ f.ser) X.length atoms = (.ok (), s) ∧ s.file = X ++ f'.ser ∧ f'.WF ∧ MoovKept f.moov f'.moov ∧
      All2 (fun t t' => All2 (fun (o o' : Nat) => (o' : Int) = o + f.growth atoms) t.chunks t'.chunks) f.moov.traks f'.moov.traks := by
  obtain ⟨s, h1, h2, -⟩ := h.toWritable.run
  refine ⟨s, f.put atoms, h1, h2, put_WF h.wf h.tables h.fits, put_kept h.tables, ?_⟩
  have ht : (f.put atoms).moov.traks = f.moov.traks.map (Spec.Trak.shift (f.growth atoms)) := by
    show (f.moov.put _ atoms).traks = _
    rw [if_pos hb, put_traks (.inl hfirst)]
  have hg : f.growth atoms < 2^62 := by
    have := put_moovEnd (atoms := atoms) h.tables X.length
    have hn := h.new
    rw [front_eq, List.length_append, front_length, List.length_append] at hn
    unfold Spec.File.moovEnd at this
    omega
  rw [ht]
  refine All2_map_right fun t htr => ?_
  obtain ⟨ext, hmem⟩ := trak_mem htr
  have htab := h.tables hb ext t hmem
  have hs : ∀ o ∈ t.chunks, (shiftBy (f.growth atoms) o : Int) = o + f.growth atoms := by
    intro o ho
    have h0 := (hr t htr).2 o ho
    have hlt := tables_chunks_lt htab o ho
    unfold shiftBy
    rw [Int.emod_eq_of_lt h0 (by omega)]
    omega
  have hsub : ∀ o ∈ t.chunks32, o ∈ t.chunks := trak_chunks32_sub t
  rw [trak_chunks htab (fun o ho => by
    have := hs o (hsub o ho)
    have := (hr t htr).1 o ho
    omega)]
  exact All2_map_right fun o ho => hs o ho

example : Rewritable env0 [] fileW atomsW ∧ fileW.MediaBehind ∧ fileW.moov.TraksFirst ∧ fileW.growth atomsW = -46 ∧
    ∀ t ∈ fileW.moov.traks, (∀ o ∈ t.chunks32, (o : Int) + -46 < 2^32) ∧ ∀ o ∈ t.chunks, 0 ≤ (o : Int) + -46 :=
  ⟨fileW_rewritable, by decide +kernel, fileW_traksFirst, by decide +kernel, by decide +kernel⟩

/-- A small file with a large chunk offset. -/
theorem fileSmall_writable : Writable env0 [] (fileWrap 3) atomsW where
  wf := fileWrap_WF 3
  fit := ⟨by decide +kernel, by decide +kernel, by decide +kernel⟩
  store := fun a ha => (atomsW_store a ha).1
  old := by decide +kernel
  new := by decide +kernel
  pos := by decide +kernel
  tables := fun _ => (fileWrap_writable (N := 2^32) rfl).tables ⟨_, List.mem_singleton.mpr rfl, rfl⟩

/-- **C52 is false**: a chunk offset that would have to be larger than 2^32 is truncated, and success is reported. -/
theorem C52_refuted : Writable env0 [] (fileWrap 3) atomsW ∧ (writeTagTo env0 (fileWrap 3).ser 0 atomsW).1 = .ok () ∧
    (writeTagTo env0 (fileWrap 3).ser 0 atomsW).2.file = ((fileWrap 3).put atomsW).ser ∧
    (fileWrap 3).moov.traks.map Trak.chunks32 = [[2^32 - 1]] ∧ (fileWrap 3).growth atomsW = 151 ∧
    ((fileWrap 3).put atomsW).moov.traks.map Trak.chunks32 = [[150]] :=
  ⟨fileSmall_writable, by decide +kernel, by decide +kernel, by decide +kernel, by decide +kernel, by decide +kernel⟩

/-- Items of more than `2 * N` bytes, and a file without metadata. -/
def atomsBig (N : Nat) : List AtomData :=
  [⟨.fourcc (cc 'a' 'a' 'a' 'a'), [.reserved (List.replicate N 0)]⟩, ⟨.fourcc (cc 'b' 'b' 'b' 'b'), [.reserved (List.replicate N 0)]⟩]
def fileBare : File := ⟨false, [], [], false, [], []⟩

theorem entryBig_length (N : Nat) (fc : Fourcc) : (entryOf ⟨.fourcc fc, [.reserved (List.replicate N 0)]⟩).box.body.length = 16 + N := by
  show (serL Part.box [dataPart (.reserved (List.replicate N 0))]).length = _
  simp only [serL_cons, serL_nil, List.length_append, List.length_nil, dataPart, Part.box, Box.ser_length, payload, List.length_replicate]
  show 8 + (4 + 4 + N) + 0 = 16 + N
  omega

theorem moovBig_length {N : Nat} (hN : N = 2^31) : (newMoov (atomsBig N)).ser.length = 2^32 + 133 := by
  have h1 : (serL Entry.box ((atomsBig N).map entryOf)).length = 48 + 2 * N := by
    simp only [atomsBig, List.map_cons, List.map_nil, serL_cons, serL_nil, List.length_append, Box.ser_length, entryBig_length, List.length_nil]
    show 8 + (16 + N) + (8 + (16 + N) + 0) = _
    omega
  have hmk : ∀ fc (b : Bytes), 2^32 ≤ b.length + 8 → (mkBox fc b).ser.length = 16 + b.length := by
    intro fc b hb
    rw [Box.ser_length, mkBox, Box.headLen, if_pos (by simp only [decide_eq_true_eq]; exact hb)]
  have h2 : (newMeta (atomsBig N)).ser.length = 2^32 + 101 := by
    have := hmk (cc 'i' 'l' 's' 't') (serL Entry.box ((atomsBig N).map entryOf)) (by omega)
    have h3 : (newMeta (atomsBig N)).ser.length = 4 + (hdlrBox.ser.length + ((ilstBox (atomsBig N)).ser.length + 0)) := by
      simp only [newMeta, Meta.ser, serL_cons, serL_nil, List.length_append, List.length_cons, List.length_nil, id]
    rw [h3, ilstBox, this, show hdlrBox.ser.length = 33 by decide]
    omega
  have h3 : (newUdta (atomsBig N)).ser.length = 2^32 + 117 := by
    have := hmk (cc 'm' 'e' 't' 'a') (newMeta (atomsBig N)).ser (by omega)
    simp only [newUdta, Udta.ser, serL_cons, serL_nil, List.length_append, List.length_nil]
    refine Eq.trans (b := (mkBox (cc 'm' 'e' 't' 'a') (newMeta (atomsBig N)).ser).ser.length + 0) rfl ?_
    omega
  have := hmk (cc 'u' 'd' 't' 'a') (newUdta (atomsBig N)).ser (by omega)
  simp only [newMoov, Spec.Moov.ser, serL_cons, serL_nil, List.length_append, List.length_nil]
  refine Eq.trans (b := (mkBox (cc 'u' 'd' 't' 'a') (newUdta (atomsBig N)).ser).ser.length + 0) rfl ?_
  omega

theorem fileBare_put (atoms : List AtomData) : fileBare.put atoms = { fileBare with moov := newMoov atoms } := rfl

theorem bareBig_length {N : Nat} (hN : N = 2^31) : ((fileBare.put (atomsBig N)).ser).length = 2^32 + 149 := by
  have hl := moovBig_length hN
  rw [fileBare_put]
  generalize newMoov (atomsBig N) = m at hl
  have : (File.ser { fileBare with moov := m }).length = 8 + 0 + (8 + m.ser.length) + 0 := by
    simp only [File.ser, List.length_append, Box.ser_length]
    rfl
  omega

theorem bareBig_writable {N : Nat} (hN : N = 2^31) : Writable envBig [] fileBare (atomsBig N) := by
  have hlen := bareBig_length hN
  have h0 : fileBare.ser.length = 16 := by decide
  refine ⟨by decide, ⟨?_, ?_, ?_⟩, ?_, ?_, ?_, ?_, fun h => absurd h (by decide)⟩
  · show fileBare.ser.length ≤ 2^63 - 1; omega
  · show fileBare.ser.length < 2^63; omega
  · show fileBare.ser.length < 2^40; omega
  · intro a ha
    have : ∃ fc, a = ⟨.fourcc fc, [.reserved (List.replicate N 0)]⟩ := by
      simp only [atomsBig, List.mem_cons, List.not_mem_nil, or_false] at ha
      rcases ha with rfl | rfl <;> exact ⟨_, rfl⟩
    obtain ⟨fc, rfl⟩ := this
    refine ⟨?_, fun _ => ?_⟩
    · intro d hd
      rw [List.mem_singleton.mp hd]; trivial
    · rw [entryBig_length]; omega
  · show fileBare.ser.length < 2^62; omega
  · show (fileBare.put _).ser.length < 2^62; omega
  · show (fileBare.put _).ser.length ≤ 2^63 - 1; omega

/-- **C52 is false**: the size of `moov` is truncated, and success is reported. -/
theorem C52_refuted_size : ∃ atoms s, Writable envBig [] fileBare atoms ∧ writeTagTo envBig fileBare.ser 0 atoms = (.ok (), s) ∧
    2^32 + 8 < s.file.length ∧ s.file = fileBare.ftypBox.ser ++ be32 (s.file.length - 8) ++ (cc 'm' 'o' 'o' 'v').bytes ++ s.file.drop 16 := by
  obtain ⟨N, hN⟩ : ∃ N : Nat, N = 2^31 := ⟨_, rfl⟩
  have hl := moovBig_length hN
  have hlen := bareBig_length hN
  have hw := bareBig_writable hN
  obtain ⟨s, h1, h2, -⟩ := hw.run
  have h2 : s.file = (fileBare.put (atomsBig N)).ser := h2
  refine ⟨atomsBig N, s, hw, h1, by rw [h2]; omega, ?_⟩
  have hm : (File.moovBox (fileBare.put (atomsBig N))).head = be32 (s.file.length - 8) ++ (cc 'm' 'o' 'o' 'v').bytes := by
    rw [h2, hlen, fileBare_put]
    generalize newMoov (atomsBig N) = m at hl
    show be32 (m.ser.length + 8) ++ (cc 'm' 'o' 'o' 'v').bytes = _
    rw [hl, show 2^32 + 149 - 8 = 2^32 + 133 + 8 by omega]
  have hs : s.file = (fileBare.ftypBox.ser ++ (File.moovBox (fileBare.put (atomsBig N))).head) ++ (fileBare.put (atomsBig N)).moov.ser := by
    rw [h2, fileBare_put]
    generalize newMoov (atomsBig N) = m
    show (fileBare.ftypBox.ser ++ [] ++ (_ ++ _) ++ []) = _
    simp only [List.append_nil, List.append_assoc]
    rfl
  have hd : s.file.drop 16 = (fileBare.put (atomsBig N)).moov.ser := by
    rw [hs, List.drop_left' (by rw [List.length_append, hm]; rfl)]
  rw [hd, List.append_assoc _ (be32 _), ← hm]
  exact hs

/-! ### C49 -/

/-- A file whose second track has a chunk offset table of an unknown version. -/
def fileLate (o : Nat) (v : UInt8) : File :=
  { fileW with
    moov := [.raw mvhdEx, .trak false (trakW o), .trak false [.node false [.node false [.node false
      [⟨false, cc 's' 't' 'c' 'o', v :: [0, 0, 0] ++ be32 0⟩]]]], .udta true [.node false metaEx]] }

/-- **C49 is false**: the error is noticed after the first track has been rewritten: its chunk offsets, which designated the content
of `mdat`, are left pointing elsewhere, although nothing has moved. -/
theorem C49_refuted : (fileLate 538 1).WF ∧ (fileLate 538 1).InMdat 0 538 3 ∧
    (writeTagTo env0 (fileLate 538 1).ser 0 atomsW).1 = .err (.unknownVersion 1) ∧
    (writeTagTo env0 (fileLate 538 1).ser 0 atomsW).2.file = (fileLate 492 1).ser ∧
    (fileLate 538 1).moov.traks.map Trak.chunks = [[538, 539], []] ∧ (fileLate 492 1).moov.traks.map Trak.chunks = [[492, 493], []] ∧
    bytesAt (fileLate 538 1).ser 538 3 = [1, 2, 3] ∧ bytesAt (fileLate 492 1).ser 492 3 ≠ [1, 2, 3] :=
  ⟨by decide +kernel, .inr ⟨[], ⟨false, cc 'm' 'd' 'a' 't', [1, 2, 3]⟩, [], rfl, rfl, by decide +kernel, by decide +kernel⟩,
   by decide +kernel, by decide +kernel, by decide +kernel, by decide +kernel, by decide +kernel, by decide +kernel⟩

/-- A file with media data in front and metadata of an unknown version. -/
def badMeta : Bytes := (File.ftypBox fileFront).ser ++ (⟨false, cc 'm' 'd' 'a' 't', [1, 2, 3]⟩ : Box).ser ++
  (⟨false, cc 'm' 'o' 'o' 'v', (⟨false, cc 'u' 'd' 't' 'a', (⟨false, cc 'm' 'e' 't' 'a', [7, 0, 0, 0]⟩ : Box).ser⟩ : Box).ser⟩ : Box).ser

theorem badMeta_order : ∀ i j, i < j → bytesAt badMeta i 4 = (cc 'm' 'o' 'o' 'v').bytes → bytesAt badMeta j 4 ≠ (cc 'm' 'd' 'a' 't').bytes := by
  intro i j hij h
  have hl : badMeta.length = 51 := by decide +kernel
  by_cases hj : j < 52
  · have : ∀ i < 52, ∀ j < 52, i < j → bytesAt badMeta i 4 = (cc 'm' 'o' 'o' 'v').bytes → bytesAt badMeta j 4 ≠ (cc 'm' 'd' 'a' 't').bytes := by
      decide +kernel
    exact this i (by omega) j hj hij h
  · unfold bytesAt
    rw [List.drop_eq_nil_of_le (by omega)]
    decide

example : (writeTagTo env0 badMeta 0 atomsW).1 = .err (.unknownVersion 7) ∧ (writeTagTo env0 badMeta 0 atomsW).2.file = badMeta ∧
    (atomsW.map AtomData.len).sum + 100 < 2^62 ∧ 2 * badMeta.length + ((atomsW.map AtomData.len).sum + 100) ≤ env0.maxPos ∧ env0.maxPos < 2^63 := by
  decide +kernel

end Mp4.Props
