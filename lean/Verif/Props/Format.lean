import Verif.Proof.Format
import Verif.Props.Display

/-!
# Printing to a formatter that fails (C103)

Tags and errors are printed by many calls; each may fail. The printed text of C63 to C65 and C86 is what is delivered if none does.
-/

namespace Mp4.Props
open Mp4 Spec

variable {σ : Type}

/-- **C103.** Printing a tag delivers the text of C63 up to the first failure, and reports it. Nothing is written after a failure. -/
theorem C103_tag (c : Formatter σ) (hc : ∀ s, (c.cut s).flatten = s) (esc : Char → Str) (t : Tag) :
    Delivers c.write (t.display esc) (t.fmt c esc) := delivers_tag hc esc t

/-- **C103.** So does printing an error with the text of C86. -/
theorem C103_error (c : Formatter σ) (hc : ∀ s, (c.cut s).flatten = s) (x : Str) (k : ErrKind) (d : Str) :
    Delivers c.write (errorText x k d) (errorFmt c x k d) := delivers_error hc x k d

theorem accepts_string {s s' : Str} {ps : List Str} (h : Accepts stringWrite s ps s') : s' = s ++ ps.flatten := by
  induction h with
  | nil => simp
  | cons h1 _ ih =>
    injection h1 with _ h1
    rw [ih, ← h1, List.flatten_cons, List.append_assoc]

theorem delivers_string {text : Str} {r : Str → Bool × Str} (h : Delivers stringWrite text r) (s : Str) : r s = (true, s ++ text) := by
  rcases h s with ⟨ps, s', h1, h2, h3⟩ | ⟨ps, p, rest, s1, s2, h1, h2, h3, h4⟩
  · rw [h3, accepts_string h1, h2]
  · cases h2

/-- **C103.** `to_string` gives the text and does not panic: that it does if `fmt` fails although the string accepts everything. -/
theorem C103_to_string (cut : Str → List Str) (hc : ∀ s, (cut s).flatten = s) (esc : Char → Str) (t : Tag) :
    t.fmt { cut, write := stringWrite } esc [] = (true, t.display esc) := by
  rw [delivers_string (C103_tag { cut, write := stringWrite } hc esc t) [], List.nil_append]

theorem accepts_room {room : Nat} {keep : Str → Nat} {s s' : Str} {ps : List Str} (h : Accepts (roomWrite room keep) s ps s')
    (hs : s.length ≤ room) : s' = s ++ ps.flatten ∧ s'.length ≤ room := by
  induction h with
  | nil => exact ⟨by simp, hs⟩
  | cons h1 _ ih =>
    unfold roomWrite at h1
    split at h1
    · rename_i hl
      injection h1 with _ h1
      subst h1
      rw [List.length_append] at ih
      obtain ⟨h2, h3⟩ := ih hl
      exact ⟨by rw [h2, List.flatten_cons, List.append_assoc], h3⟩
    · injection h1 with h1 _
      cases h1

theorem delivers_room {room : Nat} {keep : Str → Nat} {text : Str} {r : Str → Bool × Str} (h : Delivers (roomWrite room keep) text r) :
    ((r []).1 = true ↔ text.length ≤ room) ∧ (r []).2 <+: text ∧ (r []).2.length ≤ room ∧ ((r []).1 = true → (r []).2 = text) := by
  rcases h [] with ⟨ps, s', h1, h2, h3⟩ | ⟨ps, p, rest, s1, s2, h1, h2, h3, h4⟩
  · obtain ⟨h4, h5⟩ := accepts_room h1 (Nat.zero_le _)
    rw [List.nil_append, h2] at h4
    subst h4
    rw [h3]
    exact ⟨⟨fun _ => h5, fun _ => rfl⟩, List.prefix_refl _, h5, fun _ => rfl⟩
  · obtain ⟨h5, h6⟩ := accepts_room h1 (Nat.zero_le _)
    rw [List.nil_append] at h5
    unfold roomWrite at h2
    split at h2
    · cases h2
    · rename_i hl
      injection h2 with _ h2
      rw [h4]
      refine ⟨⟨fun h => (by cases h), fun h => ?_⟩, ?_, ?_, fun h => by cases h⟩
      · rw [← h3, List.length_append, List.length_append, ← h5] at h; omega
      · rw [← h2, h5, ← h3, List.append_assoc]
        exact List.prefix_append_right_inj _ |>.mpr ((List.take_prefix _ _).trans (List.prefix_append _ _))
      · rw [← h2, List.length_append, List.length_take]; omega

/-- **C103.** Into a buffer with limited room: printing succeeds exactly if the text fits, otherwise the buffer holds a beginning of
the text, however the text is passed on and whatever the buffer keeps of the piece that did not fit. -/
theorem C103_room (cut : Str → List Str) (hc : ∀ s, (cut s).flatten = s) (room : Nat) (keep : Str → Nat) (esc : Char → Str) (t : Tag) :
    let r := t.fmt { cut, write := roomWrite room keep } esc []
    (r.1 = true ↔ (t.display esc).length ≤ room) ∧ r.2 <+: t.display esc ∧ r.2.length ≤ room ∧ (r.1 = true → r.2 = t.display esc) :=
  delivers_room (C103_tag { cut, write := roomWrite room keep } hc esc t)

/-- Ways to pass a text on: at once, or by characters. -/
def cutNot (s : Str) : List Str := [s]
def cutChars (s : Str) : List Str := s.map fun c => [c]
example : (∀ s, (cutNot s).flatten = s) ∧ ∀ s, (cutChars s).flatten = s := by
  refine ⟨fun s => by simp [cutNot], fun s => ?_⟩
  induction s with
  | nil => rfl
  | cons c s ih => rw [cutChars, List.map_cons, List.flatten_cons, ← cutChars, ih]; rfl

def tagFmt : Tag :=
  { ftyp := "M4A ".toList, info := {}, atoms := [⟨.fourcc (cc '©' 'n' 'a' 'm'), [.utf8 "ab".toList]⟩, ⟨.freeform ['m'] ['n'], [.beSigned [7]]⟩] }

/-- The full text and a buffer that is too small for it, by characters and at once. -/
example : (tagFmt.fmt ⟨cutChars, stringWrite⟩ (fun c => [c]) []).2 =
      "title: ab\n----:m:n:\n    Data::BeSigned([7])\nfiletype: M4A \n".toList ∧
    tagFmt.fmt ⟨cutChars, roomWrite 8 fun _ => 0⟩ (fun c => [c]) [] = (false, "title: a".toList) ∧
    tagFmt.fmt ⟨cutNot, roomWrite 8 fun _ => 0⟩ (fun c => [c]) [] = (false, "title: ".toList) ∧
    tagFmt.fmt ⟨cutNot, roomWrite 61 fun _ => 0⟩ (fun c => [c]) [] = tagFmt.fmt ⟨cutChars, stringWrite⟩ (fun c => [c]) [] := by
  decide +kernel

/-- A receiver that fails once: the calls are counted, and there is none after the third one, which fails. -/
example : (tagFmt.fmt ⟨cutNot, fun _ n => (n != 2, n + 1)⟩ (fun c => [c]) 0) = (false, 3) ∧
    (errorFmt ⟨cutNot, fun _ n => (n != 1, n + 1)⟩ [] .noTag "x".toList 0) = (false, 2) := by decide +kernel

end Mp4.Props
