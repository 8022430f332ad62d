import Verif.Proof.Stuck
import Verif.Props.WriteMore
/-
C77: malformed chunk offset tables.
-/
namespace Mp4.Props
open Mp4 Spec

/-- Media data follows the movie atom, so chunk offsets have to be adjusted. Nothing is assumed about the tables. -/
structure Adjusting (e : Env) (X : Bytes) (f : File) (atoms : List AtomData) : Prop where
  wf : f.WF
  fit : Fit e (X ++ f.ser)
  store : ∀ a ∈ atoms, Storable a
  old : (X ++ f.ser).length < 2^62
  new : ((X ++ f.ser).length : Int) + f.growth atoms < 2^62
  behind : f.MediaBehind

/-- **C77.** Writing fails at the first malformed table: with an unknown version, or as damaged data. What it leaves is the file with
the tables in front of that one adjusted as if the metadata had been replaced, which it has not. Nothing in front of the movie atom
is touched, and no byte moves. -/
theorem C77_reported (e : Env) (X : Bytes) (f : File) (atoms : List AtomData) (h : Adjusting e X f atoms) (m' : Spec.Moov) (body : Bytes)
    (hb : Moov.Stuck (f.growth atoms) f.moov m' body) :
    ∃ k s, TableErr body k ∧ writeTagTo e (X ++ f.ser) X.length atoms = (.err k, s) ∧
      s.file = X ++ ({ f with moov := m' } : File).ser ∧ s.file.length = (X ++ f.ser).length ∧
      ∀ op ∈ s.trace, f.moovPos X.length ≤ op.lo := by
  obtain ⟨hl, k, s, h1, h2, h3, h4, -⟩ := writeTagTo_stuck h.fit h.wf h.store h.old h.new h.behind hb
  refine ⟨k, s, h1, h2, h3, ?_, h4⟩
  rw [h3]
  simp only [File.ser, List.length_append, Box.ser_length]
  have e1 : (File.moovBox { f with moov := m' }).body.length = f.moovBox.body.length := hl
  have e2 : (File.moovBox { f with moov := m' }).headLen = f.moovBox.headLen := rfl
  rw [e1, e2]; rfl

/-- **C77.** If no table is in front of the malformed one, the file is left as it was. -/
theorem C77_unchanged (e : Env) (X : Bytes) (f : File) (atoms : List AtomData) (h : Adjusting e X f atoms) (A B : List MoovKid)
    (ext : Bool) (t : Spec.Trak) (s : Stbl) (body : Bytes) (hm : f.moov = A ++ .trak ext t :: B) (hA : ∀ ext t, MoovKid.trak ext t ∉ A)
    (ht : t.stbl = some s) (hs : s.Stuck32 body) :
    ∃ k, TableErr body k ∧ (writeTagTo e (X ++ f.ser) X.length atoms).1 = .err k ∧
      (writeTagTo e (X ++ f.ser) X.length atoms).2.file = X ++ f.ser := by
  have hst := Moov.Stuck.stco (d := f.growth atoms) A ext t B s body hm (fun ext t h => absurd h (hA ext t)) ht hs
  obtain ⟨k, s, h1, h2, h3, -⟩ := C77_reported e X f atoms h _ _ hst
  refine ⟨k, h1, by rw [h2], ?_⟩
  rw [h2, h3]
  have : A.map (MoovKid.mapTrak (Spec.Trak.shift (f.growth atoms))) = A := by
    conv => rhs; rw [← List.map_id A]
    refine List.map_congr_left fun k hk => ?_
    cases k with
    | trak ext t => exact absurd hk (hA ext t)
    | udta ext u => rfl
    | raw b => rfl
  rw [this, ← hm]

/-- **C77.** Reading is not affected by the failed attempt. -/
theorem C77_read (e : Env) (X : Bytes) (f : File) (u t : Tag) (h : Adjusting e X f u.atoms) (m' : Spec.Moov) (body : Bytes)
    (hb : Moov.Stuck (f.growth u.atoms) f.moov m' body) (hc : f.Content t) :
    ∃ k F, writeTag e (X ++ f.ser) X.length u = (.err k, F) ∧ readTag e (X ++ f.ser) X.length = .ok t ∧
      readTag e F X.length = .ok t := by
  obtain ⟨k, s, -, h2, h3, h4, -⟩ := C77_reported e X f u.atoms h m' body hb
  refine ⟨k, s.file, by rw [writeTag, h2], ?_, ?_⟩
  · have := read_spec (e := e) (X := X) (Y := []) (by rw [List.append_nil]; exact h.fit) h.wf hc
    rwa [List.append_nil] at this
  · obtain ⟨hl, -⟩ := writeTagTo_stuck h.fit h.wf h.store h.old h.new h.behind hb
    have hw : File.WF { f with moov := m' } := by
      obtain ⟨w1, w2, w3, w4, w5⟩ := h.wf
      refine ⟨w1, ?_, stuck_WF hb w3, w4, w5⟩
      intro hx
      have := w2 hx
      show m'.ser.length + 8 < 2^32
      rw [hl]; exact this
    have hc' : File.Content { f with moov := m' } t := by
      obtain ⟨dur, audio, items, c1, c2⟩ := hc
      exact ⟨dur, audio, items, stuck_content hb c1, c2⟩
    rw [h3] at h4 ⊢
    have := read_spec (e := e) (X := X) (Y := []) (by
      rw [List.append_nil]
      exact ⟨by rw [h4]; exact h.fit.pos, by rw [h4]; exact h.fit.len, by rw [h4]; exact h.fit.fuel⟩) hw hc'
    rwa [List.append_nil] at this

/-- **C77.** Writing succeeds exactly if no table that counts is malformed, whatever atoms there are several of. -/
theorem C77_iff (e : Env) (X : Bytes) (f : File) (atoms : List AtomData) (h : Adjusting e X f atoms)
    (hp : ((X ++ f.ser).length : Int) + f.growth atoms ≤ e.maxPos) (ho : f.moov.Low) :
    ((writeTagTo e (X ++ f.ser) X.length atoms).1 = .ok () ↔ f.moov.Tables) ∧
    ((∃ k, (writeTagTo e (X ++ f.ser) X.length atoms).1 = .err k) ↔ ¬ f.moov.Tables) := by
  by_cases ht : f.moov.Tables
  · have h1 := put_ser_length (f := f) (atoms := atoms) fun _ => ht
    have h2 := growth_eq f atoms
    have h3 : (X ++ f.ser).length = X.length + f.ser.length := List.length_append
    have h4 : (X ++ (f.put atoms).ser).length = X.length + (f.put atoms).ser.length := List.length_append
    obtain ⟨s, hs, -⟩ := writeTagTo_spec h.fit h.wf h.store h.old (by have := h.new; omega) (by omega) fun _ => ht
    rw [hs]
    exact ⟨⟨fun _ => ht, fun _ => rfl⟩, ⟨fun ⟨k, hk⟩ => (by cases hk), fun hn => absurd ht hn⟩⟩
  · obtain ⟨m', body, hst⟩ := moov_dec ho ht (f.growth atoms)
    obtain ⟨k, s, -, hs, -⟩ := C77_reported e X f atoms h m' body hst
    rw [hs]
    exact ⟨⟨fun hk => (by cases hk), fun hn => absurd hn ht⟩, ⟨fun _ => ht, fun _ => ⟨k, rfl⟩⟩⟩

/-- The file of C49 in which the table of the second track is malformed. -/
theorem fileLate_adj : Adjusting env0 [] (fileLate 538 1) atomsW where
  wf := by decide +kernel
  fit := ⟨by decide +kernel, by decide +kernel, by decide +kernel⟩
  store := fun a ha => (atomsW_store a ha).1
  old := by decide +kernel
  new := by decide +kernel
  behind := by decide +kernel

theorem fileLate_tables : Moov.Tables [.raw mvhdEx, .trak false (trakW 538)] := by
  intro ext t h
  simp only [List.mem_cons, List.not_mem_nil, or_false, reduceCtorEq, false_or, MoovKid.trak.injEq] at h
  obtain ⟨rfl, rfl⟩ := h
  exact trakW_tables (by decide)

/-- The hypotheses of C77_reported hold. -/
example : ∃ m' body, Moov.Stuck ((fileLate 538 1).growth atomsW) (fileLate 538 1).moov m' body ∧ TableBad 4 body ∧
    ({ fileLate 538 1 with moov := m' } : File).ser = (fileLate 492 1).ser :=
  ⟨_, _, .stco [.raw mvhdEx, .trak false (trakW 538)] false _ [.udta true [.node false metaEx]] _ _ rfl fileLate_tables rfl
    ⟨rfl, by decide +kernel⟩, by decide +kernel, by decide +kernel⟩

/-- A file with one track, whose tables are `s`. -/
def fileTab (s : Stbl) : File :=
  { fileW with moov := [.raw mvhdEx, .trak false [.node false [.node false [.node false s]]], .udta true [.node false metaEx]] }

/-- Tables with `n` entries of `w` bytes, which claim to have `m`. -/
def tabEx (w : Nat) (fc : Fourcc) (m n : Nat) : Box := ⟨false, fc, 0 :: [0, 0, 0] ++ be32 m ++ List.replicate (w * n) 0⟩

theorem fileTab_adj : ∀ s ∈ [[tabEx 4 (cc 's' 't' 'c' 'o') 1 2], [tabEx 4 (cc 's' 't' 'c' 'o') 2 1], [tabEx 4 (cc 's' 't' 'c' 'o') 1 1],
    [tableW 4 400 (cc 's' 't' 'c' 'o'), tabEx 8 (cc 'c' 'o' '6' '4') 0 1], [⟨false, cc 's' 't' 'c' 'o', [0, 0]⟩]],
    Adjusting env0 [] (fileTab s) atomsW := by
  intro s hs
  refine ⟨?_, ⟨?_, ?_, ?_⟩, fun a ha => (atomsW_store a ha).1, ?_, ?_, ?_⟩ <;> revert s <;> decide +kernel

/-- Tables that are too long, and too short. -/
example : (writeTagTo env0 (fileTab [tabEx 4 (cc 's' 't' 'c' 'o') 1 2]).ser 0 atomsW).1 = .err .parsing ∧
    (writeTagTo env0 (fileTab [tabEx 4 (cc 's' 't' 'c' 'o') 2 1]).ser 0 atomsW).1 = .err .parsing ∧
    (writeTagTo env0 (fileTab [tabEx 4 (cc 's' 't' 'c' 'o') 1 1]).ser 0 atomsW).1 = .ok () ∧
    (writeTagTo env0 (fileTab [⟨false, cc 's' 't' 'c' 'o', [0, 0]⟩]).ser 0 atomsW).1 = .err .parsing := by decide +kernel

/-- The hypotheses of C77_iff hold of them, the first table is malformed. -/
example : (fileTab [tabEx 4 (cc 's' 't' 'c' 'o') 1 2]).moov.Low ∧ ¬ (fileTab [tabEx 4 (cc 's' 't' 'c' 'o') 1 2]).moov.Tables := by
  constructor
  · intro ext t h
    obtain ⟨rfl, rfl⟩ : ext = false ∧ t = [.node false [.node false [.node false [tabEx 4 (cc 's' 't' 'c' 'o') 1 2]]]] := by
      simpa [fileTab] using h
    decide
  · intro h
    have := (h false _ (.tail _ (.head _)) _ rfl _ rfl _ rfl).1 _ rfl
    rw [tableWF_iff (offsets4_lt _)] at this
    exact this (by decide +kernel)

/-- A malformed `stco` in front of another one does not count, nor does one in a sample table in front of another one. -/
theorem fileDup_tables : (fileTab [tabEx 4 (cc 's' 't' 'c' 'o') 1 2, tableW 4 400 (cc 's' 't' 'c' 'o')]).moov.Tables := by
  intro ext t h
  obtain ⟨rfl, rfl⟩ : ext = false ∧ t = [.node false [.node false [.node false
      [tabEx 4 (cc 's' 't' 'c' 'o') 1 2, tableW 4 400 (cc 's' 't' 'c' 'o')]]]] := by
    simpa [fileTab] using h
  intro a ha a' ha' a'' ha''
  obtain rfl := Option.some.inj ha
  obtain rfl := Option.some.inj ha'
  obtain rfl := Option.some.inj ha''
  constructor <;> intro body h
  · obtain rfl : (tableW 4 400 (cc 's' 't' 'c' 'o')).body = body := Option.some.inj h
    exact tableW_WF (by decide) _
  · cases h

example : (writeTagTo env0 (fileTab [tabEx 4 (cc 's' 't' 'c' 'o') 1 2, tableW 4 400 (cc 's' 't' 'c' 'o')]).ser 0 atomsW).1 = .ok () ∧
    (writeTagTo env0 (fileTab [tableW 4 400 (cc 's' 't' 'c' 'o'), tabEx 4 (cc 's' 't' 'c' 'o') 1 2]).ser 0 atomsW).1 = .err .parsing := by
  decide +kernel

/-- A malformed `co64` is noticed when the `stco` has been adjusted already. -/
example : ∃ m' body, Moov.Stuck ((fileTab [tableW 4 400 (cc 's' 't' 'c' 'o'), tabEx 8 (cc 'c' 'o' '6' '4') 0 1]).growth atomsW)
    (fileTab [tableW 4 400 (cc 's' 't' 'c' 'o'), tabEx 8 (cc 'c' 'o' '6' '4') 0 1]).moov m' body ∧ TableBad 8 body ∧
    m'.ser ≠ (fileTab [tableW 4 400 (cc 's' 't' 'c' 'o'), tabEx 8 (cc 'c' 'o' '6' '4') 0 1]).moov.ser :=
  ⟨_, _, .co64 [.raw mvhdEx] false _ [.udta true [.node false metaEx]] _ _ rfl (fun _ _ h => by simp at h) rfl
    ⟨by
      intro body hb
      obtain rfl : (tableW 4 400 (cc 's' 't' 'c' 'o')).body = body := Option.some.inj hb
      exact tableW_WF (by decide) _, rfl, by decide +kernel⟩, by decide +kernel, by decide +kernel⟩

end Mp4.Props
