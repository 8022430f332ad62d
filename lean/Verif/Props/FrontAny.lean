import Verif.Proof.FrontAny
import Verif.Spec.FrontAny
import Verif.Props.WriteMore
import Verif.Props.Sane
import Verif.Props.Fault
/-
C73: saving to arbitrary bytes touches nothing in front of the movie atom.
-/
namespace Mp4.Props
open Mp4 Spec

/-! ### C73 -/

theorem headB_movie {F : Bytes} {m : Nat} {s : Size} (h : HeadB F MOVIE ⟨m, s⟩) : (F.drop (m + 4)).take 4 = [109, 111, 111, 118] := by
  obtain ⟨h1, -, -⟩ := h
  obtain ⟨A, B, hF, hA⟩ := h1.elim
  dsimp only at hF hA
  subst hA
  rw [hF, List.append_assoc, List.drop_append, List.drop_eq_nil_of_le (by omega), Nat.add_sub_cancel_left]
  cases s.ext <;> rfl

/-- The bytes in front of a movie atom, if there is one. -/
theorem crash_front {F : Bytes} {n : Nat} {s : WSt} (h : (s.file = F ∧ s.trace = []) ∨ ∃ m sz, HeadB F MOVIE ⟨m, sz⟩ ∧ Safe F m s)
    (hn : NoMovieBefore F n) : s.file.take n = F.take n ∧ ∀ G, Crash F s.trace G → G.take n = F.take n := by
  rcases h with ⟨h1, h2⟩ | ⟨m, sz, hm, hs⟩
  · refine ⟨by rw [h1], fun G hG => ?_⟩
    rw [h2] at hG
    cases hG with
    | done => rfl
    | during A op B G hc _ => exact absurd hc (by simp)
  · have hnm : n ≤ m := Nat.le_of_not_lt fun h => hn m h (headB_movie hm)
    have hle := hm.le
    dsimp only at hle
    have hlow : ∀ op ∈ s.trace, n ≤ op.lo := fun op ho => Nat.le_trans hnm (hs.low op ho)
    refine ⟨by rw [← hs.replay]; exact (foldl_take hlow (by omega)).1, fun G hG => ?_⟩
    cases hG with
    | done => exact (foldl_take hlow (by omega)).1
    | during A op B G hc hG =>
      rw [hc] at hlow
      obtain ⟨k1, k2⟩ := foldl_take (ops := A) (F := F) (fun o ho => hlow o (by simp [ho])) (by omega)
      exact (partly_take hG (hlow op (by simp)) k2).trans k1

/-- **C73**, the full claim: for arbitrary bytes, whatever the outcome, nothing in front of the place where the first movie atom
may begin is changed. -/
def FrontUntouched : Prop := ∀ (e : Env) (F : Bytes) (p : Nat) (t : Tag) (n : Nat), F.length ≤ e.maxPos → e.maxPos < 2^63 →
  F.length < e.fuel → (t.atoms.map AtomData.len).sum + 100 < 2^62 → NoMovieBefore F n → (writeTag e F p t).2.take n = F.take n

/-- **C73**, what holds: if no 64 bit size is 2^63 or more or smaller than its head, then — whatever I/O calls fail, whatever the
outcome, and wherever the process is stopped — nothing in front of the first movie atom is changed. Missing: input with such
sizes, for which the claim is false (`C73_refuted`). -/
theorem C73_partial (fl : Faults) (e : Env) (F : Bytes) (p : Nat) (t : Tag) (n : Nat) (hl : F.length ≤ e.maxPos) (hm : e.maxPos < 2^63)
    (hf : F.length < e.fuel) (hs : SaneSizes F) (ht : (t.atoms.map AtomData.len).sum + 100 < 2^62) (hn : NoMovieBefore F n) :
    (writeTagF fl e F p t.atoms).2.file.take n = F.take n ∧
    ∀ G, Crash F (writeTagF fl e F p t.atoms).2.trace G → G.take n = F.take n :=
  crash_front (writeTagF_front fl ⟨⟨hl, by omega, hf⟩, hm, hs⟩ ht p) hn

/-- **C73**, without I/O errors. -/
theorem C73_write_partial (e : Env) (F : Bytes) (p : Nat) (t : Tag) (n : Nat) (hl : F.length ≤ e.maxPos) (hm : e.maxPos < 2^63)
    (hf : F.length < e.fuel) (hs : SaneSizes F) (ht : (t.atoms.map AtomData.len).sum + 100 < 2^62) (hn : NoMovieBefore F n) :
    (writeTag e F p t).2.take n = F.take n := by
  have h := (C73_partial .none e F p t n hl hm hf hs ht hn).1
  rcases writeTagF_sim .none e F p t.atoms with ⟨-, -, -, h2⟩ | ⟨h2, -⟩ | ⟨h2, -⟩ | ⟨h2, -⟩
  · show (writeTagTo e F p t.atoms).2.file.take n = _
    rw [← h2]; exact h
  · cases h2
  · exact absurd (fun _ _ => rfl) h2
  · exact absurd (fun _ _ => rfl) h2

/-- Bytes in front of `moov` that are changed: a table that is inside an atom that is skipped. A track of the movie has an atom
whose 64 bit size is larger than 2^63, so that the search continues in front of it, at that table. -/
def jumpTable : Bytes :=
  (mkBox (cc 't' 'r' 'a' 'k') (mkBox (cc 'm' 'd' 'i' 'a') (mkBox (cc 'm' 'i' 'n' 'f') (mkBox (cc 's' 't' 'b' 'l')
    (mkBox (cc 's' 't' 'c' 'o') ([0, 0, 0, 0] ++ be32 1 ++ be32 250)).ser).ser).ser).ser).ser

def jumpEx : Bytes :=
  (mkBox (cc 'f' 't' 'y' 'p') [77, 52, 65, 32]).ser ++
  be32 68 ++ (cc 'f' 'r' 'e' 'e').bytes ++ jumpTable ++ be32 92 ++ (cc 'f' 'r' 'e' 'e').bytes ++
  be32 84 ++ (cc 'm' 'o' 'o' 'v').bytes ++
    be32 24 ++ (cc 't' 'r' 'a' 'k').bytes ++ be32 1 ++ (cc 'f' 'r' 'e' 'e').bytes ++ be64 (2^64 - 76) ++
    (mkBox (cc 'f' 'r' 'e' 'e') (List.replicate 44 0)).ser ++
  (mkBox (cc 'm' 'd' 'a' 't') (List.replicate 150 7)).ser

theorem jumpEx_before : NoMovieBefore jumpEx 80 := by
  unfold NoMovieBefore; decide +kernel

/-- **C73 is false**: such a file is saved successfully, in builds with and without overflow checks, and the byte string that looks
like a table, in front of `moov`, has been changed. -/
theorem C73_refuted : ¬ FrontUntouched ∧ NoMovieBefore jumpEx 80 ∧ ∀ checked,
    (writeTag { env0 with checked := checked } jumpEx 0 tagEx).1 = .ok () ∧
    bytesAt jumpEx 68 4 = be32 250 ∧ bytesAt (writeTag { env0 with checked := checked } jumpEx 0 tagEx).2 68 4 = be32 404 := by
  have h : ∀ checked, (writeTag { env0 with checked := checked } jumpEx 0 tagEx).1 = .ok () ∧
    bytesAt jumpEx 68 4 = be32 250 ∧ bytesAt (writeTag { env0 with checked := checked } jumpEx 0 tagEx).2 68 4 = be32 404 := by
    intro checked; cases checked <;> decide +kernel
  refine ⟨fun hu => ?_, jumpEx_before, h⟩
  have h1 := hu env0 jumpEx 0 tagEx 80 (by decide +kernel) (by decide) (by decide +kernel) (by decide +kernel) jumpEx_before
  have key : ∀ H : Bytes, bytesAt H 68 4 = bytesAt (H.take 80) 68 4 := by
    intro H
    rw [bytesAt, bytesAt, List.drop_take, List.take_take]
    rfl
  have h2 : bytesAt (writeTag env0 jumpEx 0 tagEx).2 68 4 = be32 404 := (h true).2.2
  rw [key, h1, ← key, (h true).2.1] at h2
  exact absurd h2 (by decide)

/-- A file that is not well-formed: media data, a movie atom that contains an atom longer than itself, and a part of an atom. It is
written, and an error of the last call leaves the file changed; the bytes in front of the movie atom are the same. -/
def oddEx : Bytes := (mkBox (cc 'f' 't' 'y' 'p') [77, 52, 65, 32]).ser ++ (mkBox (cc 'm' 'd' 'a' 't') [1, 2, 3]).ser ++
  be32 24 ++ (cc 'm' 'o' 'o' 'v').bytes ++ be32 28 ++ (cc 'u' 'd' 't' 'a').bytes ++ be32 8 ++ (cc 'f' 'r' 'e' 'e').bytes ++
  be32 12 ++ (cc 'f' 'r' 'e' 'e').bytes ++ [0, 0, 0, 0] ++ be32 100 ++ (cc 's' 'k' 'i' 'p').bytes ++ [5, 6]

example : SaneSizes oddEx ∧ NoMovieBefore oddEx 23 ∧ (oddEx.drop 23).take 8 = be32 24 ++ (cc 'm' 'o' 'o' 'v').bytes ∧
    (writeTag env0 oddEx 0 tagEx).1 = .ok () ∧ (writeTag env0 oddEx 0 tagEx).2 ≠ oddEx ∧
    (writeTagF (failAt 3 1) env0 oddEx 0 tagEx.atoms).1 = .err .io ∧
    (writeTagF (failAt 3 1) env0 oddEx 0 tagEx.atoms).2.file ≠ oddEx ∧
    (writeTagF (failAt 3 1) env0 oddEx 0 tagEx.atoms).2.file.take 23 = oddEx.take 23 :=
  ⟨saneB_sound (by decide +kernel), by unfold NoMovieBefore; decide +kernel, by decide +kernel, by decide +kernel, by decide +kernel,
    by decide +kernel, by decide +kernel, by decide +kernel⟩

end Mp4.Props
