import Verif.Props.InPlace
import Verif.Proof.Retry
/-
C100: repeating a save that has failed.
-/
namespace Mp4.Props
open Mp4 Spec

theorem between_slot {n : Nat} {S : Bytes → Bytes} (h : Window n S) {b b' H : Bytes} (hb : b.length = n) (hb' : b'.length = n)
    (hH : Between (S b) (S b') H) : ∃ c, c.length = n ∧ H = S c := by
  obtain ⟨L, R, h⟩ := h
  obtain ⟨h1, h2⟩ := hH
  rw [h b hb] at h1 h2
  rw [h b' hb'] at h2
  simp only [List.length_append] at h1
  have hc : ((H.drop L.length).take n).length = n := by
    rw [List.length_take, List.length_drop]; omega
  refine ⟨(H.drop L.length).take n, hc, ?_⟩
  rw [h _ hc]
  apply List.ext_getElem?
  intro i
  by_cases hi : i < L.length
  · rw [List.append_assoc, List.getElem?_append_left hi]
    have := h2 i
    rw [List.append_assoc, List.append_assoc, List.getElem?_append_left hi, List.getElem?_append_left hi] at this
    exact this.elim id id
  · by_cases hj : i < L.length + n
    · rw [List.append_assoc, List.getElem?_append_right (by omega), List.getElem?_append_left (by omega), List.getElem?_take,
        if_pos (by omega), List.getElem?_drop]
      congr 1; omega
    · have := h2 i
      rw [List.getElem?_append_right (by rw [List.length_append]; omega), List.getElem?_append_right (by rw [List.length_append]; omega)] at this
      rw [List.getElem?_append_right (by rw [List.length_append]; omega)]
      simp only [List.length_append, hc, hb, hb'] at this ⊢
      exact this.elim id id

theorem Writable.slot {e X atoms} {f : File} {p : Slot} (hp : p.Last) {b c : Bytes} (hc : c.length = b.length)
    (h : Writable e X (f.at p b) atoms) : Writable e X (f.at p c) atoms := by
  have hl : (X ++ (f.at p c).ser).length = (X ++ (f.at p b).ser).length := (at_window f p X b.length).len hc rfl
  have hput := at_put (f := f) hp hc.symm atoms
  refine { wf := at_WF hc.symm h.wf, fit := ?_, store := h.store, old := by rw [hl]; exact h.old, new := by rw [hput]; exact h.new,
           pos := by rw [hput]; exact h.pos, tables := at_tables h.tables }
  obtain ⟨h1, h2, h3⟩ := h.fit
  rw [← hl] at h1 h2 h3
  exact ⟨h1, h2, h3⟩

/-- What an attempt, disturbed in any way, leaves: the file with another body of the item list. -/
theorem slot_attempt {e X atoms} {f : File} {p : Slot} (hp : p.Last) {b : Bytes} (fl : Faults) (h : Writable e X (f.at p b) atoms)
    (hg : (f.at p b).growth atoms = 0) :
    ∀ H, (H = (writeTagF fl e (X ++ (f.at p b).ser) X.length atoms).2.file ∨
        Crash (X ++ (f.at p b).ser) (writeTagF fl e (X ++ (f.at p b).ser) X.length atoms).2.trace H) →
      ∃ c, c.length = b.length ∧ H = X ++ (f.at p c).ser := by
  obtain ⟨h1, h2⟩ := C90_bytes fl e X (f.at p b) atoms h hg
  obtain ⟨b', hb', hn⟩ := at_new hp h.wf h.tables hg
  rw [hn] at h1 h2
  intro H hH
  refine between_slot (at_window f p X b.length) rfl hb' ?_
  rcases hH with rfl | hH
  · exact h1
  · exact h2 H hH

/-- Attempts to save, each of one of the tags `ok`, with any failing calls, and possibly with the process stopped. -/
inductive Attempts (e : Env) (pos : Nat) (ok : List AtomData → Prop) : Bytes → Bytes → Prop
  | none (F : Bytes) : Attempts e pos ok F F
  | failed (F G : Bytes) (fl : Faults) (atoms : List AtomData) : ok atoms → Attempts e pos ok (writeTagF fl e F pos atoms).2.file G →
      Attempts e pos ok F G
  | stopped (F H G : Bytes) (fl : Faults) (atoms : List AtomData) : ok atoms → Crash F (writeTagF fl e F pos atoms).2.trace H →
      Attempts e pos ok H G → Attempts e pos ok F G

theorem slot_attempts {e X} {f : File} {p : Slot} (hp : p.Last) {F G : Bytes} {b : Bytes} (h : Attempts e X.length
    (fun atoms => Writable e X (f.at p b) atoms ∧ (f.at p b).growth atoms = 0) F G) :
    (∃ c, c.length = b.length ∧ F = X ++ (f.at p c).ser) → ∃ c, c.length = b.length ∧ G = X ++ (f.at p c).ser := by
  induction h with
  | none F => exact id
  | failed F G fl atoms ok _ ih =>
    rintro ⟨c, hc, rfl⟩
    obtain ⟨d, hd, hH⟩ := slot_attempt hp fl (ok.1.slot hp hc) (by rw [at_growth hp hc.symm]; exact ok.2) _ (.inl rfl)
    exact ih ⟨d, by omega, hH⟩
  | stopped F H G fl atoms ok hcr _ ih =>
    rintro ⟨c, hc, rfl⟩
    obtain ⟨d, hd, hH⟩ := slot_attempt hp fl (ok.1.slot hp hc) (by rw [at_growth hp hc.symm]; exact ok.2) _ (.inr hcr)
    exact ih ⟨d, by omega, hH⟩

/-- **C100**, if the saves keep the length of the file, which has a handler and an item list with a 32 bit size: after any number
of attempts, each with any failing calls and possibly stopped anywhere, also of other tags, saving a tag leaves the file that
saving it at once would have left. Missing: the other cases, in which the claim is false (`C100_refuted`, `C100_stuck`,
`C100_long`, `C100_handler`). -/
theorem C100_partial (e : Env) (X : Bytes) (f : File) (p : Slot) (b : Bytes) (hf : f.InPlace p b) (G : Bytes)
    (h : Attempts e X.length (fun A => Writable e X f A ∧ f.growth A = 0) (X ++ f.ser) G) (atoms : List AtomData) (hw : Writable e X f atoms) :
    ∃ s s', writeTagTo e G X.length atoms = (.ok (), s) ∧ writeTagTo e (X ++ f.ser) X.length atoms = (.ok (), s') ∧
      s.file = X ++ (f.put atoms).ser ∧ s'.file = s.file := by
  have hp := hf.1
  have hat := file_at hf
  generalize hx : X ++ f.ser = F at h ⊢
  rw [← hat] at h hw hx ⊢
  obtain ⟨c, hc, rfl⟩ := slot_attempts hp h ⟨b, rfl, hx.symm⟩
  obtain ⟨s, h1, h2, -⟩ := (hw.slot hp hc).run
  obtain ⟨s', h3, h4, -⟩ := hw.run
  rw [at_put hp hc.symm] at h2
  exact ⟨s, s', h1, by rw [← hx]; exact h3, h2, by rw [h4, h2]⟩

/-- **C100** also if the length changes, provided that the failed attempt has left the old or the new file. -/
theorem C100_whole (e : Env) (X : Bytes) (f : File) (atoms : List AtomData) (h : Rewritable e X f atoms) (H : Bytes)
    (hH : H = X ++ f.ser ∨ H = X ++ (f.put atoms).ser) :
    ∃ s, writeTagTo e H X.length atoms = (.ok (), s) ∧ s.file = X ++ (f.put atoms).ser := by
  rcases hH with rfl | rfl
  · obtain ⟨s, h1, h2, -⟩ := h.run
    exact ⟨s, h1, h2⟩
  · have hs : SameForm atoms atoms := ⟨Iff.rfl, Iff.rfl⟩
    obtain ⟨s, h1, h2, -⟩ := (h.again h.toWritable hs).run
    exact ⟨s, h1, by rw [h2, put_put h.tables hs]⟩

/-- **C100**: an attempt that fails before the first write, in particular while the file is searched, does no harm, whatever the
file is. -/
theorem C100_search (fl : Faults) (e : Env) (F : Bytes) (pos : Nat) (A B : List AtomData) (h : fl.search = true) :
    writeTagTo e (writeTagF fl e F pos A).2.file pos B = writeTagTo e F pos B := by
  rw [(C59_search fl e F pos A h).2.1]

/-! ### Examples and refutations -/

/-- **C100**: whatever the calls that fail, and however much of the file the save changes, saving the same tag again succeeds and
leaves the file that saving it at once would have left. -/
def RetryHeals : Prop := ∀ (fl : Faults) (e : Env) (X : Bytes) (f : File) (atoms : List AtomData), Rewritable e X f atoms →
  (writeTagF fl e (X ++ f.ser) X.length atoms).1 = .err .io →
    ∃ s, writeTagTo e (writeTagF fl e (X ++ f.ser) X.length atoms).2.file X.length atoms = (.ok (), s) ∧ s.file = X ++ (f.put atoms).ser

/-- The place in `fileMix`. -/
def slotMix : Slot := ⟨[.raw mvhdEx], false, [], false, [0, 0, 0], [hdlrBox], [], [], []⟩

/-- The file whose items do not fit into the buffer, see `C90_mixed`. -/
theorem mix_slot : (fileMix 64).InPlace slotMix (serL Entry.box ((mixed 64 'a' 'b').map entryOf)) :=
  ⟨⟨nofun, ⟨hdlrBox, by simp [slotMix], rfl⟩, nofun, nofun⟩, by decide +kernel⟩

/-- Calls from `k` on fail, the first after `n` bytes. -/
def brokenFrom (k n : Nat) : Faults := ⟨fun i => if i = k then some n else if k < i then some 0 else none, false⟩

theorem attempts_two {e : Env} {pos : Nat} {ok : List AtomData → Prop} {F : Bytes} (fl fl' : Faults) {A B : List AtomData} (hA : ok A) (hB : ok B) :
    Attempts e pos ok F (writeTagF fl' e (writeTagF fl e F pos A).2.file pos B).2.file :=
  .failed _ _ _ _ hA (.failed _ _ _ _ hB (.none _))

/-- The title is the new one and the artist the old one; and then an attempt to save other items fails in the middle of the title.
When the items are saved again, they are what was to be saved. -/
example : let F := (fileMix 64).ser
    let G := (writeTagF (brokenFrom 5 0) envMix F 0 (mixed 64 'x' 'y')).2.file
    let H := (writeTagF (brokenFrom 4 33) envMix G 0 (mixed 64 'v' 'w')).2.file
    readTag envMix G 0 = .ok (tagMix 64 'x' 'b') ∧ G ≠ H ∧
    (writeTagTo envMix H 0 (mixed 64 'x' 'y')).1 = .ok () ∧
    (writeTagTo envMix H 0 (mixed 64 'x' 'y')).2.file = ((fileMix 64).put (mixed 64 'x' 'y')).ser := by decide +kernel

/-- These are two attempts. -/
example (F : Bytes) : Attempts envMix 0 (fun A => A = mixed 64 'x' 'y' ∨ A = mixed 64 'v' 'w') F
    (writeTagF (brokenFrom 4 33) envMix (writeTagF (brokenFrom 5 0) envMix F 0 (mixed 64 'x' 'y')).2.file 0 (mixed 64 'v' 'w')).2.file :=
  attempts_two _ _ (.inl rfl) (.inr rfl)

/-- `fileW` after the first of its tables has been adjusted twice and the second one once. -/
def fileTwice : File :=
  { fileEx with
    moov := [.raw mvhdEx, .trak false [], .trak false [.raw ⟨false, cc 't' 'k' 'h' 'd', [1]⟩, .node false [.node true [.node false
        [stsdEx, tableW 4 414 (cc 's' 't' 'c' 'o'), tableW 8 461 (cc 'c' 'o' '6' '4')]]]],
      .udta true [.raw ⟨false, cc 'x' 'x' 'x' 'x', []⟩, .node false ⟨[0, 0, 0], [hdlrBox, ilstBox atomsW]⟩]] }

/-- The second call fails, when one of two chunk offset tables has been adjusted. The second attempt succeeds, but adjusts this
table again: the chunk that was at 506, and is at 460, is looked for at 414. -/
theorem C100_twice : (writeTagF (failAt 1 0) env0 fileW.ser 0 atomsW).1 = .err .io ∧
    (∃ s, writeTagTo env0 (writeTagF (failAt 1 0) env0 fileW.ser 0 atomsW).2.file 0 atomsW = (.ok (), s) ∧ s.file = fileTwice.ser) ∧
    fileTwice.WF ∧ fileW.InMdat 0 506 3 ∧ fileW.moov.traks.map Spec.Trak.chunks = [[], [506, 507]] ∧
    (fileW.put atomsW).moov.traks.map Spec.Trak.chunks = [[], [460, 461]] ∧
    fileTwice.moov.traks.map Spec.Trak.chunks = [[], [414, 461]] ∧
    bytesAt (fileW.put atomsW).ser 460 3 = bytesAt fileW.ser 506 3 ∧ bytesAt fileTwice.ser 414 3 ≠ bytesAt fileW.ser 506 3 := by
  have key : (writeTagTo env0 (writeTagF (failAt 1 0) env0 fileW.ser 0 atomsW).2.file 0 atomsW).1 = .ok () ∧
      (writeTagTo env0 (writeTagF (failAt 1 0) env0 fileW.ser 0 atomsW).2.file 0 atomsW).2.file = fileTwice.ser := by decide +kernel
  refine ⟨by decide +kernel, ?_, by decide +kernel, fileW_in, by decide +kernel, by decide +kernel,
    by decide +kernel, by decide +kernel, by decide +kernel⟩
  generalize writeTagTo env0 (writeTagF (failAt 1 0) env0 fileW.ser 0 atomsW).2.file 0 atomsW = r at key
  exact ⟨r.2, Prod.ext key.1 rfl, key.2⟩

theorem not_heals {fl : Faults} {e : Env} {f : File} {atoms : List AtomData} {G : Bytes} (hw : Rewritable e [] f atoms)
    (h1 : (writeTagF fl e f.ser 0 atoms).1 = .err .io)
    (h2 : ∃ s, writeTagTo e (writeTagF fl e f.ser 0 atoms).2.file 0 atoms = (.ok (), s) ∧ s.file = G) (hG : G ≠ (f.put atoms).ser) :
    ¬ RetryHeals := by
  intro h
  obtain ⟨s, h2, h3⟩ := h2
  obtain ⟨s', h5, h6⟩ := h fl e [] f atoms hw h1
  have h7 := h5.symm.trans h2
  injection h7 with _ h7
  exact hG (by rw [← h3, ← h7, h6]; rfl)

/-- **C100 is false**: the second attempt adjusts chunk offsets that the first one has already adjusted. -/
theorem C100_refuted : ¬ RetryHeals :=
  not_heals fileW_rewritable C100_twice.1 C100_twice.2.1 (by decide +kernel)

/-- **C100 is false** also in that the second attempt may fail, without failing calls: when the size of `moov` has been changed,
but not what is in it, its atoms are no longer found. -/
theorem C100_stuck : Rewritable env0 [] fileW atomsW ∧ ∀ k, 4 ≤ k → k ≤ 8 → (writeTagF (failAt k 0) env0 fileW.ser 0 atomsW).1 = .err .io ∧
    (writeTagTo env0 (writeTagF (failAt k 0) env0 fileW.ser 0 atomsW).2.file 0 atomsW).1 = .err .io := by
  refine ⟨fileW_rewritable, fun k h1 h2 => ?_⟩
  have key : ∀ k < 9, 4 ≤ k → (writeTagF (failAt k 0) env0 fileW.ser 0 atomsW).1 = .err .io ∧
      (writeTagTo env0 (writeTagF (failAt k 0) env0 fileW.ser 0 atomsW).2.file 0 atomsW).1 = .err .io := by decide +kernel
  exact key k (by omega) h1

/-- An item list with a 64 bit size, as long as the one that is to be written. -/
def fileLongIlst : File :=
  { fileMix 0 with
    moov := [.raw mvhdEx, .udta false [.node false ⟨[0, 0, 0], [hdlrBox, ⟨true, cc 'i' 'l' 's' 't', List.replicate 267 0⟩]⟩]] }

theorem noTraks {f : File} {b : Box} {ext : Bool} {u : Udta} (h : f.moov = [.raw b, .udta ext u]) : f.moov.Tables := by
  intro ext t ht
  simp [h] at ht

/-- The 32 bit size is needed: if the call that writes the items stops within the new size, the next attempt fails. -/
theorem C100_long : Writable env0 [] fileLongIlst (mixed 201 'x' 'y') ∧ fileLongIlst.growth (mixed 201 'x' 'y') = 0 ∧
    (writeTagF (brokenFrom 4 3) env0 fileLongIlst.ser 0 (mixed 201 'x' 'y')).1 = .err .io ∧
    (writeTagTo env0 (writeTagF (brokenFrom 4 3) env0 fileLongIlst.ser 0 (mixed 201 'x' 'y')).2.file 0 (mixed 201 'x' 'y')).1 = .err .parsing := by
  refine ⟨{ wf := by decide +kernel, fit := ⟨by decide +kernel, by decide +kernel, by decide +kernel⟩, store := mixed_store (by decide +kernel),
            old := by decide +kernel, new := by decide +kernel, pos := by decide +kernel, tables := fun _ => noTraks rfl },
    by decide +kernel, by decide +kernel, by decide +kernel⟩

/-- An item list without a handler, as long as the handler and the item list that are to be written. -/
def fileNoHdlr : File :=
  { fileMix 0 with
    moov := [.raw mvhdEx, .udta false [.node false ⟨[0, 0, 0], [⟨false, cc 'i' 'l' 's' 't', List.replicate 108 0⟩]⟩]] }

/-- The handler is needed: if the call that writes the items stops behind the new handler, the next attempt fails. -/
theorem C100_handler : Writable env0 [] fileNoHdlr (mixed 1 'x' 'y') ∧ fileNoHdlr.growth (mixed 1 'x' 'y') = 0 ∧
    (writeTagF (brokenFrom 4 33) env0 fileNoHdlr.ser 0 (mixed 1 'x' 'y')).1 = .err .io ∧
    (writeTagTo env0 (writeTagF (brokenFrom 4 33) env0 fileNoHdlr.ser 0 (mixed 1 'x' 'y')).2.file 0 (mixed 1 'x' 'y')).1 = .err .parsing := by
  refine ⟨{ wf := by decide +kernel, fit := ⟨by decide +kernel, by decide +kernel, by decide +kernel⟩, store := mixed_store (by decide +kernel),
            old := by decide +kernel, new := by decide +kernel, pos := by decide +kernel, tables := fun _ => noTraks rfl },
    by decide +kernel, by decide +kernel, by decide +kernel⟩

/-- `C100_search` and `C100_whole`: a failed search, and a last call that fails, do no harm. -/
example : (writeTagF ⟨fun _ => none, true⟩ env0 fileW.ser 0 atomsW).1 = .err .io ∧
    (writeTagF (failAt 10 0) env0 fileW.ser 0 atomsW).1 = .err .io ∧
    (writeTagTo env0 (writeTagF (failAt 10 0) env0 fileW.ser 0 atomsW).2.file 0 atomsW).2.file = (fileW.put atomsW).ser := by decide +kernel

end Mp4.Props
