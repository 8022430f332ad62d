import Verif.Proof.LateChecked
import Verif.Props.NoPanic
import Verif.Props.WriteMore
/-
C49: what a failed write may have changed, for arbitrary input.
-/
namespace Mp4.Props
open Mp4 Spec

/-! ### C49 -/

/-- What rules out an overflow once the chunk offset tables have been adjusted. -/
structure Modest (F : Bytes) (atoms : List AtomData) : Prop where
  total : F.length + ((atoms.map AtomData.len).sum + 100) < 2^62
  outer : SmallOuter F
  parts : ∀ a ∈ atoms, ShortParts a

/-- Behind the adjusting of tables, nothing can fail. -/
theorem writeRest_ok {e : Env} {F : Bytes} {pos : Nat} {atoms : List AtomData} {mp moov p r} (h1 : findTop e F pos = .ok ((mp, moov), r))
    (h2 : mkPlan moov atoms e = .ok p) (h4 : p.movedDataStart ≤ F.length) (hmax : e.maxPos < 2^63)
    (hnew : (atoms.map AtomData.len).sum + 100 < 2^62) (hroom : 2 * F.length + ((atoms.map AtomData.len).sum + 100) ≤ e.maxPos) (s : WSt)
    (hbad : (writePhase 0 moov p F.length (F.drop p.movedDataStart) atoms e s).1 ≠ .ok ()) :
    e.checked = true ∧ (writePhase 0 moov p F.length (F.drop p.movedDataStart) atoms e s).1 = .panic ∧ ¬ Modest F atoms := by
  have hf := (findTop_found h1).1
  have hok := mkPlan_ok h2 hf (by omega) hnew h4
  rcases writePhase_runs (mdatPos := 0) (moov := moov) (moved := F.drop p.movedDataStart) hok h4 (Nat.not_lt_zero _) hmax
    (by unfold insertBound; omega) s trivial with ⟨a, s', h5, -⟩ | ⟨h5, h6⟩
  · rw [h5] at hbad; exact absurd rfl hbad
  · refine ⟨h6, h5, fun hm => ?_⟩
    have := writePhase_nopanic (e := e) (moov := moov) (moved := F.drop p.movedDataStart) hm.total hm.outer hm.parts h4
      (mkPlan_updates h2 (findTop_finds h1)) (mkPlan_newIlst h2) hok s
    rw [h5] at this
    exact this

/-- **C49**, what holds, for any bytes as file and any atoms: if the bytes `mdat` do not occur behind the bytes `moov`, and there is
room for the file, a copy of what is moved and the new atoms, a failure means that nothing has been written or truncated. This
includes panics; in builds with overflow checks provided that no value or name has 2^32 - 16 bytes or more (`C49_refuted_large`) and
no `moov`, `udta` or `meta` claims 2^62 bytes or more (`C49_refuted_claim`). Missing: files with media data behind `moov`, whose chunk
offset tables are parsed while others have already been rewritten (`C49_refuted`). -/
theorem C49_partial (e : Env) (F : Bytes) (pos : Nat) (atoms : List AtomData) (hmax : e.maxPos < 2^63)
    (hnew : (atoms.map AtomData.len).sum + 100 < 2^62) (hroom : 2 * F.length + ((atoms.map AtomData.len).sum + 100) ≤ e.maxPos)
    (hno : ∀ i j, i < j → bytesAt F i 4 = (cc 'm' 'o' 'o' 'v').bytes → bytesAt F j 4 ≠ (cc 'm' 'd' 'a' 't').bytes)
    (hbad : (writeTagTo e F pos atoms).1 ≠ .ok ())
    (hp : e.checked = true → (writeTagTo e F pos atoms).1 = .panic → Modest F atoms) :
    (writeTagTo e F pos atoms).2.file = F ∧ (writeTagTo e F pos atoms).2.trace = [] := by
  unfold writeTagTo at hbad hp ⊢
  split
  · rename_i mp moov p ol moved q h
    rw [h] at hbad hp
    dsimp only at hbad hp
    exfalso
    obtain ⟨⟨r, h1⟩, h2, rfl, h4, rfl⟩ := preparePhase_inv h hmax
    obtain ⟨hf, hm⟩ := findTop_found h1
    have hq : ¬ mp > moov.bounds.pos := by
      intro hgt
      rcases hm with rfl | ⟨hm, -⟩
      · omega
      · exact hno (moov.bounds.pos + 4) (mp + 4) (by omega) hf.1.2.2 hm
    have h0 : ∀ s, writePhase mp moov p F.length (F.drop p.movedDataStart) atoms e s =
        writePhase 0 moov p F.length (F.drop p.movedDataStart) atoms e s := fun s => by
      rw [writePhase_split, if_neg hq]; rfl
    rw [h0] at hbad hp
    obtain ⟨k1, k2, k3⟩ := writeRest_ok h1 h2 h4 hmax hnew hroom _ hbad
    exact k3 (hp k1 k2)
  all_goals exact ⟨rfl, rfl⟩

/-- **C49**, what holds for any bytes as file and any atoms, wherever the media data is: if there is room, a failure, be it a panic
(under the same conditions as above), leaves the length of the file and everything but entries of chunk offset tables as they were;
also if the process is stopped on the way there. Missing: those entries, which may have been shifted (`C49_refuted`). -/
theorem C49_tables_partial (e : Env) (F : Bytes) (pos : Nat) (atoms : List AtomData) (hmax : e.maxPos < 2^63)
    (hnew : (atoms.map AtomData.len).sum + 100 < 2^62) (hroom : 2 * F.length + ((atoms.map AtomData.len).sum + 100) ≤ e.maxPos)
    (hbad : (writeTagTo e F pos atoms).1 ≠ .ok ())
    (hp : e.checked = true → (writeTagTo e F pos atoms).1 = .panic → Modest F atoms) :
    OnlyTables F (writeTagTo e F pos atoms).2.file ∧ ∀ G, Crash F (writeTagTo e F pos atoms).2.trace G → OnlyTables F G := by
  have key : Within (TableByte F) F (writeTagTo e F pos atoms).2 := by
    have h0 : ∀ c, Within (TableByte F) F { file := F, cur := c } := fun c => ⟨by simp, rfl, by simp⟩
    unfold writeTagTo at hbad hp ⊢
    split
    · rename_i mp moov p ol moved q h
      rw [h] at hbad hp
      dsimp only at hbad hp ⊢
      refine within_flush ?_
      obtain ⟨⟨r, h1⟩, h2, rfl, h4, rfl⟩ := preparePhase_inv h hmax
      rw [writePhase_split] at hbad hp ⊢
      have ht : HoldsW e (WithinE (TableByte F) F)
          (if mp > moov.bounds.pos then wAll (patchStbl p.lenDiff) (stblAtoms moov) else pure ())
          (fun _ => WithinE (TableByte F) F) (Within (TableByte F) F) := by
        split
        · exact stbls_within (by omega) (findTop_finds h1)
        · exact .pure _ fun _ h => h
      have ht := ht { file := F, cur := e.rcur 0 } ⟨h0 _, rfl⟩
      rw [W.bind_apply] at hbad hp ⊢
      revert ht hbad hp
      generalize (if mp > moov.bounds.pos then wAll (patchStbl p.lenDiff) (stblAtoms moov) else pure ()) e
        { file := F, cur := e.rcur 0 } = x
      obtain ⟨o, s⟩ := x
      intro hp hbad ht
      cases o with
      | ok a =>
        exfalso
        dsimp only at hbad hp
        obtain ⟨k1, k2, k3⟩ := writeRest_ok h1 h2 h4 hmax hnew hroom s hbad
        exact k3 (hp k1 k2)
      | err k => exact ht
      | panic => exact ht
      | fuel => exact ht
    all_goals exact h0 _
  refine ⟨key.only tableByte_lt, fun G hG => ?_⟩
  cases hG with
  | done => exact ops_inner tableByte_lt _ _ ⟨rfl, fun _ _ => rfl⟩ key.ops
  | during A op B G hc hG =>
    have ha := ops_inner tableByte_lt A F ⟨rfl, fun _ _ => rfl⟩ fun o ho => key.ops o (by rw [hc]; simp [ho])
    obtain ⟨off, b, rfl, hb, hT⟩ := key.ops op (by rw [hc]; simp)
    cases hG with
    | write _ _ _ j =>
      by_cases hj : b.take j = []
      · have hlt := tableByte_lt _ (hT 0 (List.length_pos_iff.mpr hb))
        show OnlyTables F (writeAt _ off (b.take j))
        rw [hj, writeAt_nil _ _ (by rw [ha.1]; omega)]
        exact ha
      · refine write_inner tableByte_lt ha hj fun i hi => hT i ?_
        rw [List.length_take] at hi
        omega

/-- The hypotheses hold of the file of `C49_refuted`; entries of its first table are different afterwards. -/
example : (writeTagTo env0 (fileLate 538 1).ser 0 atomsW).1 = .err (.unknownVersion 1) ∧
    (writeTagTo env0 (fileLate 538 1).ser 0 atomsW).2.file ≠ (fileLate 538 1).ser ∧ env0.maxPos < 2^63 ∧
    (atomsW.map AtomData.len).sum + 100 < 2^62 ∧
    2 * (fileLate 538 1).ser.length + ((atomsW.map AtomData.len).sum + 100) ≤ env0.maxPos := by
  decide +kernel

/-- A second table of a wrong size. -/
def wrongSize : Bytes :=
  let inner : Bytes := (⟨false, cc 's' 't' 'c' 'o', be32 0 ++ be32 1 ++ be32 7⟩ : Box).ser
  (⟨false, cc 'f' 't' 'y' 'p', []⟩ : Box).ser ++
  (⟨false, cc 'm' 'o' 'o' 'v', (⟨false, cc 't' 'r' 'a' 'k', (⟨false, cc 'm' 'd' 'i' 'a', (⟨false, cc 'm' 'i' 'n' 'f',
    (⟨false, cc 's' 't' 'b' 'l', inner ++ (⟨false, cc 'c' 'o' '6' '4', be32 0 ++ be32 2 ++ be32 9⟩ : Box).ser⟩ : Box).ser⟩ : Box).ser⟩
      : Box).ser⟩ : Box).ser⟩ : Box).ser ++
  (⟨false, cc 'm' 'd' 'a' 't', [1, 2, 3]⟩ : Box).ser

/-- It is left with the entry at position 64 shifted, which is in its first table, and with nothing else changed. -/
example : (writeTagTo env0 wrongSize 0 atomsW).1 = .err .parsing ∧ (writeTagTo env0 wrongSize 0 atomsW).2.file ≠ wrongSize ∧
    (List.range wrongSize.length).filter (fun i => (writeTagTo env0 wrongSize 0 atomsW).2.file[i]? ≠ wrongSize[i]?) = [67] ∧
    bytesAt wrongSize 52 4 = (cc 's' 't' 'c' 'o').bytes ∧ claimedLen wrongSize 48 = 20 := by
  decide +kernel

theorem smallOuter_of {F : Bytes} (h : Contained F) (hl : F.length < 2^62) : SmallOuter F := fun ext n rest fc hfc hin => by
  have h1 := h ext fc n rest (by
    simp only [List.mem_cons, List.not_mem_nil, or_false] at hfc ⊢
    rcases hfc with hfc | hfc | hfc <;> simp [hfc]) hin
  obtain ⟨-, A, rfl⟩ := hin
  rw [List.length_append, List.length_append, headBytes_length] at hl
  omega

/-- The hypotheses hold of the panic of `C62_refuted_co64`, in a build with overflow checks. -/
example : Modest (fileHuge 546).ser atomsW ∧ (writeTagTo env0 (fileHuge 546).ser 0 atomsW).1 = .panic ∧
    (writeTagTo env0 (fileHuge 546).ser 0 atomsW).2.file ≠ (fileHuge 546).ser ∧
    2 * (fileHuge 546).ser.length + ((atomsW.map AtomData.len).sum + 100) ≤ env0.maxPos := by
  refine ⟨⟨by decide +kernel, smallOuter_of (containedB_sound (by decide +kernel)) (by decide +kernel), ?_⟩, by decide +kernel,
    by decide +kernel, by decide +kernel⟩
  intro a ha
  simp only [atomsW, List.mem_cons, List.not_mem_nil, or_false] at ha
  rcases ha with rfl | rfl
  · exact ⟨by decide +kernel, fun mean name hi => by cases hi⟩
  · exact ⟨by decide +kernel, fun mean name hi => by cases hi; decide +kernel⟩

/-! ### Panics that damage the file -/

/-- The metadata of `claimFile`. -/
def metaClaim : Bytes := (⟨false, cc 'm' 'e' 't' 'a', be32 0 ++ (⟨false, cc 'h' 'd' 'l' 'r', []⟩ : Box).ser ++
  (⟨false, cc 'i' 'l' 's' 't', be64 0⟩ : Box).ser⟩ : Box).ser

/-- A movie atom of `n` bytes with user data claiming to have 2^63 bytes; the last atom in it makes the search go back by 56 bytes. -/
def claimFile (n : Nat) : Bytes := (⟨false, cc 'f' 't' 'y' 'p', []⟩ : Box).ser ++ be32 n ++ (cc 'm' 'o' 'o' 'v').bytes ++
  (be32 1 ++ (cc 'u' 'd' 't' 'a').bytes ++ be64 (2^63) ++ metaClaim ++ (be32 1 ++ (cc 'f' 'r' 'e' 'e').bytes ++ be64 (2^64 - 40)))

/-- **C49 is false**: with overflow checks, removing the items of a file whose user data claims to have 2^63 bytes panics when the size
of `moov` has already been changed: it is smaller than the file by the 8 bytes that have not been removed. Media data is not needed. -/
theorem C49_refuted_claim : writeTagTo env0 (claimFile 76) 0 [] = (.panic, { file := claimFile 68, cur := 12, trace := [.write 8 (be32 68)] }) ∧
    (claimFile 76).length = 84 ∧ (claimFile 68).length = 84 := by
  refine ⟨?_, by decide +kernel, by decide +kernel⟩
  have h : (writeTagTo env0 (claimFile 76) 0 []).1 = .panic ∧ (writeTagTo env0 (claimFile 76) 0 []).2.file = claimFile 68 ∧
      (writeTagTo env0 (claimFile 76) 0 []).2.cur = 12 ∧ (writeTagTo env0 (claimFile 76) 0 []).2.buf = [] ∧
      (writeTagTo env0 (claimFile 76) 0 []).2.trace = [.write 8 (be32 68)] := by decide +kernel
  generalize writeTagTo env0 (claimFile 76) 0 [] = x at h
  obtain ⟨o, f, c, b, t⟩ := x
  obtain ⟨h1, h2, h3, h4, h5⟩ := h
  dsimp only at h1 h2 h3 h4 h5
  rw [h1, h2, h3, h4, h5]

theorem never_fails {e : Env} {m : W Unit} (h1 : Runs e anyState m anyState) (h2 : WTot False e m fun _ => True) (s : WSt) :
    ∃ s', m e s = (.ok (), s') := by
  rcases h1 s trivial with ⟨a, s', h, -⟩ | ⟨h, -⟩
  · exact ⟨s', h⟩
  · have := h2 s
    rw [h] at this
    exact this.elim

theorem flush_long (s : WSt) : s.file.length ≤ s.flushBuf.file.length := by
  unfold WSt.flushBuf WSt.sysWrite
  split
  · exact Nat.le_refl _
  · dsimp only; rw [writeAt_length]; omega

theorem sysWrite_long (s : WSt) (b : Bytes) : s.file.length ≤ (s.sysWrite b).file.length := by
  unfold WSt.sysWrite
  split
  · exact Nat.le_refl _
  · dsimp only; rw [writeAt_length]; omega

/-- Writing does not shorten the file. -/
theorem wWriteAll_long {e : Env} (b : Bytes) (s : WSt) : ∃ s', wWriteAll b e s = (.ok (), s') ∧ s.file.length ≤ s'.file.length := by
  have h : s.file.length ≤ (if b.length > e.cap - s.buf.length then s.flushBuf else s).file.length := by
    split
    · exact flush_long s
    · exact Nat.le_refl _
  unfold wWriteAll
  split
  · exact ⟨_, rfl, Nat.le_refl _⟩
  · dsimp only
    split
    · exact ⟨_, rfl, Nat.le_trans h (sysWrite_long _ _)⟩
    · exact ⟨_, rfl, h⟩

theorem wAll_long {e : Env} : ∀ (l : List Bytes) (s : WSt), ∃ s', wAll wWriteAll l e s = (.ok (), s') ∧ s.file.length ≤ s'.file.length
  | [], s => ⟨s, rfl, Nat.le_refl _⟩
  | b :: l, s => by
    obtain ⟨s1, h1, h2⟩ := wWriteAll_long (e := e) b s
    obtain ⟨s2, h3, h4⟩ := wAll_long l s1
    refine ⟨s2, ?_, Nat.le_trans h2 h4⟩
    rw [wAll, W.bind_ok h1]
    exact h3

theorem wr_panic {e : Env} {m : Wr Unit} {f : Unit → Wr Unit} (hm : (m e).2 = .ok ()) (hf : (f () e).2 = .panic) : ((m >>= f) e).2 = .panic := by
  show (Wr.bind m f e).2 = _
  unfold Wr.bind
  generalize m e = x at hm
  obtain ⟨c, o⟩ := x
  dsimp only at hm
  subst hm
  exact hf

theorem wr_panic_first {e : Env} {α} {m : Wr α} {f : α → Wr Unit} (hm : (m e).2 = .panic) : ((m >>= f) e).2 = .panic := by
  show (Wr.bind m f e).2 = _
  unfold Wr.bind
  generalize m e = x at hm
  obtain ⟨c, o⟩ := x
  dsimp only at hm
  subst hm
  rfl

theorem wr_seq {e : Env} {m : Wr Unit} {f : Unit → Wr Unit} (hm : (m e).2 = .ok ()) (hf : (f () e).2 = .ok ()) : ((m >>= f) e).2 = .ok () := by
  show (Wr.bind m f e).2 = _
  unfold Wr.bind
  generalize m e = x at hm
  obtain ⟨c, o⟩ := x
  dsimp only at hm
  subst hm
  exact hf

theorem wr_head {e : Env} (h : Head) : (writeHead h e).2 = .ok () := by
  unfold writeHead
  split <;> rfl

theorem add16 {d : Nat} (h : d < 2^40) : addI (asI64 16) d env0 = .ok (16 + (d : Int)) ∧ asU64 (16 + (d : Int)) = 16 + d := by
  constructor
  · rw [show asI64 16 = 16 by decide, addI, if_pos (by omega)]
  · unfold asU64; omega

/-- The only item: a value of `N` bytes. -/
def atomsLarge (N : Nat) : List AtomData := [⟨.fourcc (cc 'a' 'a' 'a' 'a'), [.reserved (List.replicate N 0)]⟩]

theorem wEmit_panic {e : Env} {m : Wr Unit} {s s' : WSt} (h : (m e).2 = .panic) (hw : wAll wWriteAll (m e).1 e s = (.ok (), s')) :
    wEmit m e s = (.panic, s') := by
  unfold wEmit
  simp only [hw, h]

theorem writeTagTo_of {e : Env} {F : Bytes} {pos : Nat} {atoms : List AtomData} {mp moov p ol moved q o s}
    (h : preparePhase atoms e F pos = .ok ((mp, moov, p, ol, moved), q))
    (hw : writePhase mp moov p ol moved atoms e { file := F, cur := e.rcur 0 } = (o, s)) : writeTagTo e F pos atoms = (o, s.flushBuf) := by
  unfold writeTagTo
  rw [h]
  dsimp only
  rw [hw]

/-- Writing to `fileBare` if the new atoms cannot be serialised. -/
theorem large_run {moov : MoovBounds} {p : Plan} {atoms : List AtomData} {d n : Nat} (hn : n = 16 + d) (hd : d < 2^40)
    (hp : (newAtomsWr p atoms env0).2 = .panic) (h1 : p.updateAtoms = [⟨8, ⟨false, 8⟩⟩]) (h2 : p.lenDiff = d) (h3 : p.newAtomsStart = 16)
    (s0 : WSt) : ∃ s, writePhase 0 moov p 16 [] atoms env0 s0 = (.panic, s) ∧ n ≤ s.flushBuf.file.length := by
  obtain ⟨s1, k1⟩ := never_fails (e := env0) (m := wAll (patchHead d) [⟨8, ⟨false, 8⟩⟩].reverse)
    (wAll_runs' _ fun a ha => patchHead_runs (by
      have : a = ⟨8, ⟨false, 8⟩⟩ := by simpa using ha
      rw [this]
      exact (by decide : 16 ≤ env0.maxPos)))
    (.wAll _ fun a ha => patchHead_tot fun _ _ => by
      have : a = ⟨8, ⟨false, 8⟩⟩ := by simpa using ha
      rw [this, show asI64 (8 : Nat) = 8 by decide]
      omega) s0
  obtain ⟨k2, k3⟩ := add16 (d := d) (by omega)
  have k4 : wSetLen (16 + d) env0 s1 = (.ok (), { s1 with file := fileSetLen s1.file (16 + d), trace := s1.trace ++ [.setLen (16 + d)] }) := by
    rw [wSetLen, if_pos (Nat.le_trans (Nat.le_of_lt (by omega : 16 + d < 2^62)) (by decide))]
  generalize hs2 : ({ s1 with file := fileSetLen s1.file (16 + d), trace := s1.trace ++ [.setLen (16 + d)] } : WSt) = s2 at k4
  have l2 : s2.file.length = 16 + d := by rw [← hs2]; exact fileSetLen_length _ _
  have k5 : wSeekStart 16 env0 s2 = (.ok (), { s2.flushBuf with cur := 16 }) := by
    rw [wSeekStart, if_pos (by decide)]
  have l3 := flush_long s2
  generalize hs3 : ({ s2.flushBuf with cur := 16 } : WSt) = s3 at k5
  have l4 : s3.file.length = s2.flushBuf.file.length := by rw [← hs3]
  obtain ⟨s4, k6, l5⟩ := wAll_long (e := env0)
    (newAtomsWr p atoms env0).1 s3
  have k7 : wEmit (newAtomsWr p atoms) env0 s3 =
      (.panic, s4) := by
    exact wEmit_panic hp k6
  have l6 := flush_long s4
  refine ⟨s4, ?_, by omega⟩
  unfold writePhase
  rw [if_neg (Nat.not_lt_zero _), h1, h2, h3]
  refine (W.bind_ok k1).trans ((W.bind_ok (E.w_ok k2 s1)).trans ?_)
  rw [k3]
  refine (W.bind_ok k4).trans ((W.bind_ok k5).trans ?_)
  rw [W.bind_apply, k7]

/-- **C49 is false**: with overflow checks, a value of 2^32 - 16 bytes or more makes writing panic when the file has already been extended for it
(src/atom/mod.rs:504, 288): a file of 16 bytes without media data is left with more than 2^32 bytes. -/
theorem C49_refuted_large (N : Nat) (h1 : 2^32 - 16 ≤ N) (h2 : N < 2^32) : fileBare.ser.length = 16 ∧
    (writeTagTo env0 fileBare.ser 0 (atomsLarge N)).1 = .panic ∧ N + 16 < (writeTagTo env0 fileBare.ser 0 (atomsLarge N)).2.file.length := by
  have hlen : fileBare.ser.length = 16 := by decide
  refine ⟨hlen, ?_⟩
  have hsum : ((atomsLarge N).map AtomData.len).sum = N + 24 := by
    simp only [atomsLarge, List.map_cons, List.map_nil, AtomData.len, Data.len, List.length_replicate, List.sum_cons, List.sum_nil]
    omega
  have hpan : ∀ p : Plan, p.newUdta = some (some ⟨some metaHdlr, some (atomsLarge N)⟩) → (newAtomsWr p (atomsLarge N) env0).2 = .panic := by
    intro p hp
    unfold newAtomsWr
    rw [hp]
    dsimp only
    refine wr_panic (wr_head _) (wr_panic (wr_head _) (wr_panic rfl (wr_panic (wr_seq (wr_head _) rfl) (wr_panic (wr_head _) ?_))))
    show ((wrAll AtomData.write (atomsLarge N)) env0).2 = .panic
    refine wr_panic_first (wr_panic rfl (wr_panic rfl (wr_panic_first (wr_panic_first ?_))))
    show addU32 16 ((List.replicate N (0 : UInt8)).length % 2^32) env0 = .panic
    rw [List.length_replicate, Nat.mod_eq_of_lt h2, addU32, if_neg (by omega)]
    rfl
  have hd := insert_le (atomsLarge N) (some metaHdlr) (.inl rfl)
  unfold insertBound at hd
  rw [hsum] at hd
  have hlow : N + 24 ≤ (udtaSize (some ⟨some metaHdlr, some (atomsLarge N)⟩)).len := by
    have k1 := ofContent_len ((atomsLarge N).map AtomData.len).sum
    have k2 := ofContent_len (lenOrZero hdlrSize (some metaHdlr) + (ilstSize (atomsLarge N)).len + 4)
    have k3 := ofContent_len (lenOrZero MetaW.size (some ⟨some metaHdlr, some (atomsLarge N)⟩))
    simp only [udtaSize, lenOrZero, MetaW.size, ilstSize] at k1 k2 k3 ⊢
    omega
  generalize hdd : (udtaSize (some ⟨some metaHdlr, some (atomsLarge N)⟩)).len = d at *
  have hs : asI64 d = d := asI64_small (by omega)
  have hplan : mkPlan ⟨⟨8, ⟨false, 8⟩⟩, [], none⟩ (atomsLarge N) env0 =
      .ok ⟨16, 16, d, [⟨8, ⟨false, 8⟩⟩], some (some ⟨some metaHdlr, some (atomsLarge N)⟩), none, none⟩ := by
    simp only [mkPlan, Option.bind_none]
    show (addI 0 (asI64 (udtaSize (some ⟨some metaHdlr, some (atomsLarge N)⟩)).len) env0).bind _ = _
    rw [hdd, hs, addI, if_pos (by omega), Int.zero_add]
    rfl
  have hfind : findTop env0 fileBare.ser 0 = .ok ((0, ⟨⟨8, ⟨false, 8⟩⟩, [], none⟩), 16) := by decide +kernel
  have hprep : preparePhase (atomsLarge N) env0 fileBare.ser 0 = .ok ((0, ⟨⟨8, ⟨false, 8⟩⟩, [], none⟩,
      ⟨16, 16, d, [⟨8, ⟨false, 8⟩⟩], some (some ⟨some metaHdlr, some (atomsLarge N)⟩), none, none⟩, 16, []), 16) := by
    unfold preparePhase
    rw [P.bind_ok hfind]
    dsimp only
    rw [P.bind_ok (E.p_ok hplan _ _)]
    rfl
  have h := large_run (moov := ⟨⟨8, ⟨false, 8⟩⟩, [], none⟩) (atoms := atomsLarge N)
    (p := ⟨16, 16, d, [⟨8, ⟨false, 8⟩⟩], some (some ⟨some metaHdlr, some (atomsLarge N)⟩), none, none⟩) (d := d) rfl (by omega) (hpan _ rfl) rfl rfl rfl
    { file := fileBare.ser, cur := env0.rcur 0 }
  obtain ⟨s, h3, h4⟩ := h
  rw [writeTagTo_of hprep h3]
  exact ⟨rfl, by dsimp only; omega⟩

example : (writeTagTo env0 fileBare.ser 0 (atomsLarge (2^32 - 1))).1 = .panic := (C49_refuted_large (2^32 - 1) (by decide) (by decide)).2.1

end Mp4.Props
