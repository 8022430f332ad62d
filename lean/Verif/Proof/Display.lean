import Verif.Model.Display
import Verif.Spec.Display
/-
Looking up fields in the printed text of a tag.
-/
namespace Mp4
open Spec

/-! ### Pieces and lines -/

theorem textPieces_ne_nil (c : Char) : ∀ s, textPieces c s ≠ [] := by
  intro s
  induction s with
  | nil => simp [textPieces]
  | cons x r ih =>
    simp only [textPieces]
    split
    · simp
    · split <;> simp

theorem textPieces_none {c : Char} : ∀ {s : Str}, c ∉ s → textPieces c s = [s] := by
  intro s
  induction s with
  | nil => intro _; rfl
  | cons x r ih =>
    intro h
    simp only [List.mem_cons, not_or] at h
    simp only [textPieces, if_neg (fun e => h.1 (Eq.symm e)), ih h.2]

theorem textPieces_append {c : Char} : ∀ {s : Str} (r : Str), c ∉ s → textPieces c (s ++ c :: r) = s :: textPieces c r := by
  intro s
  induction s with
  | nil => intro r _; simp [textPieces]
  | cons x s ih =>
    intro r h
    simp only [List.mem_cons, not_or] at h
    simp only [List.cons_append, textPieces, if_neg (fun e => h.1 (Eq.symm e)), ih r h.2]

theorem textPieces_lines : ∀ (ls : List Str), (∀ l ∈ ls, '\n' ∉ l) →
    textPieces '\n' (ls.flatMap line) = ls ++ [[]] := by
  intro ls
  induction ls with
  | nil => intro _; rfl
  | cons l ls ih =>
    intro h
    have hl := h l (List.mem_cons_self ..)
    have := ih fun x hx => h x (List.mem_cons_of_mem _ hx)
    rw [List.flatMap_cons, line, List.append_assoc]
    show textPieces '\n' (l ++ '\n' :: ls.flatMap line) = _
    rw [textPieces_append _ hl, this]; rfl

theorem linesOf_lines (ls : List Str) (h : ∀ l ∈ ls, '\n' ∉ l) : linesOf (ls.flatMap line) = ls := by
  rw [linesOf, textPieces_lines ls h, List.dropLast_concat]

/-! ### Fields -/

/-- What is printed for a field. -/
inductive Body where
  | absent
  | mark
  | one (v : Str)
  | many (vs : List Str)

/-- A field with its names. -/
structure Field where
  name : Str
  names : Str
  body : Body

/-- The lines of a field. -/
def Field.lines (f : Field) : List Str :=
  match f.body with
  | .absent => []
  | .mark => [f.name]
  | .one v => [f.name ++ ": ".toList ++ v]
  | .many vs => (f.names ++ ":".toList) :: vs.map ("    ".toList ++ ·)

/-- The values of a field. -/
def Body.values : Body → List Str
  | .one v => [v]
  | .many vs => vs
  | _ => []

/-- A name of a field: not empty, starts with a letter, has no colon. -/
def okName (n : Str) : Bool :=
  (match n with | [] => false | c :: _ => c ≠ ' ' && c ≠ '-') && !n.contains ':' && !n.contains '\n'

theorem prefix_colon {a b : Str} (r s : Str) (ha : ':' ∉ a) (hb : ':' ∉ b)
    (h : a ++ ':' :: r <+: b ++ ':' :: s) : a = b := by
  induction a generalizing b with
  | nil =>
    cases b with
    | nil => rfl
    | cons y b =>
      simp only [List.nil_append, List.cons_append, List.cons_prefix_cons] at h
      simp only [List.mem_cons, not_or] at hb
      exact absurd h.1 hb.1
  | cons x a ih =>
    cases b with
    | nil =>
      simp only [List.nil_append, List.cons_append, List.cons_prefix_cons] at h
      simp only [List.mem_cons, not_or] at ha
      exact absurd h.1.symm ha.1
    | cons y b =>
      simp only [List.cons_append, List.cons_prefix_cons] at h
      simp only [List.mem_cons, not_or] at ha hb
      rw [h.1, ih ha.2 hb.2 h.2]

theorem prefix_noColon {a b : Str} (r : Str) (hb : ':' ∉ b) : ¬ a ++ ':' :: r <+: b := by
  intro h
  exact hb (h.subset (by simp))

theorem okName_colon {n : Str} (h : okName n = true) : ':' ∉ n := by
  simp only [okName, Bool.and_eq_true, Bool.not_eq_true', List.contains_eq_mem, decide_eq_false_iff_not] at h
  exact h.1.2
theorem okName_nl {n : Str} (h : okName n = true) : '\n' ∉ n := by
  simp only [okName, Bool.and_eq_true, Bool.not_eq_true', List.contains_eq_mem, decide_eq_false_iff_not] at h
  exact h.2

theorem okName_head {n : Str} (h : okName n = true) : ∃ c r, n = c :: r ∧ c ≠ ' ' ∧ c ≠ '-' := by
  cases n with
  | nil => simp [okName] at h
  | cons c r =>
    simp only [okName, Bool.and_eq_true, decide_eq_true_eq, ne_eq] at h
    exact ⟨c, r, rfl, h.1.1.1, h.1.1.2⟩

/-- The line says nothing about the field. -/
def Quiet (name names : Str) (l : Str) : Prop :=
  (name ++ ": ".toList).isPrefixOf l = false ∧ l ≠ names ++ ":".toList

theorem quiet_other {name names b : Str} (hn : okName name = true) (hns : okName names = true)
    (hb : okName b = true) (h1 : name ≠ b) (h2 : names ≠ b) (r : Str) :
    Quiet name names (b ++ ':' :: r) ∧ Quiet name names b := by
  have cn := okName_colon hn
  have cns := okName_colon hns
  have cb := okName_colon hb
  refine ⟨⟨?_, fun h => ?_⟩, ?_, fun h => ?_⟩
  · rw [Bool.eq_false_iff, ne_eq, List.isPrefixOf_iff_prefix]
    exact fun h => h1 (prefix_colon _ _ cn cb h)
  · exact h2 (prefix_colon [] r cns cb (h ▸ List.prefix_refl _))
  · rw [Bool.eq_false_iff, ne_eq, List.isPrefixOf_iff_prefix]
    exact prefix_noColon _ cb
  · exact cb (h ▸ by simp)

theorem quiet_head {name names : Str} (hn : okName name = true) (hns : okName names = true) {c : Char}
    (hc : c = ' ' ∨ c = '-') (r : Str) : Quiet name names (c :: r) := by
  obtain ⟨x, xs, rfl, hx1, hx2⟩ := okName_head hn
  obtain ⟨y, ys, rfl, hy1, hy2⟩ := okName_head hns
  have hxc : x ≠ c := by rcases hc with rfl | rfl <;> assumption
  have hyc : y ≠ c := by rcases hc with rfl | rfl <;> assumption
  refine ⟨?_, fun h => ?_⟩
  · rw [Bool.eq_false_iff, ne_eq, List.isPrefixOf_iff_prefix]
    intro h
    rw [List.cons_append, List.cons_prefix_cons] at h
    exact hxc h.1
  · rw [List.cons_append, List.cons.injEq] at h
    exact hyc h.1.symm

theorem fieldValues_quiet {name names : Str} : ∀ {ls : List Str} (r : List Str),
    (∀ l ∈ ls, Quiet name names l) → fieldValues name names (ls ++ r) = fieldValues name names r := by
  intro ls
  induction ls with
  | nil => intro r _; rfl
  | cons l ls ih =>
    intro r h
    have hq := h l (List.mem_cons_self ..)
    rw [List.cons_append, fieldValues, hq.1, if_neg (by simp), if_neg hq.2]
    exact ih r fun x hx => h x (List.mem_cons_of_mem _ hx)

/-- Names as they occur in the text. -/
structure Field.Ok (f : Field) : Prop where
  name : okName f.name = true
  names : okName f.names = true

theorem Field.quiet {name names : Str} (hn : okName name = true) (hns : okName names = true) {f : Field}
    (hf : f.Ok) (h : name ≠ f.name ∧ names ≠ f.name ∧ name ≠ f.names ∧ names ≠ f.names) :
    ∀ l ∈ f.lines, Quiet name names l := by
  intro l hl
  obtain ⟨fn, fns, b⟩ := f
  cases b with
  | absent => exact absurd hl (by simp [Field.lines])
  | mark =>
    simp only [Field.lines, List.mem_singleton] at hl
    subst hl; exact (quiet_other hn hns hf.name h.1 h.2.1 []).2
  | one v =>
    simp only [Field.lines, List.mem_singleton] at hl
    subst hl
    rw [List.append_assoc]
    exact (quiet_other hn hns hf.name h.1 h.2.1 _).1
  | many vs =>
    simp only [Field.lines, List.mem_cons, List.mem_map] at hl
    rcases hl with rfl | ⟨v, _, rfl⟩
    · exact (quiet_other hn hns hf.names h.2.2.1 h.2.2.2 _).1
    · exact quiet_head hn hns (.inl rfl) _

/-- The first line of what follows is not indented. -/
def NotIndented (r : List Str) : Prop := ∀ l, r.head? = some l → indented l = false

theorem takeWhile_indented : ∀ (vs : List Str) (r : List Str), NotIndented r →
    ((vs.map ("    ".toList ++ ·) ++ r).takeWhile indented).map (·.drop 4) = vs := by
  intro vs
  induction vs with
  | nil =>
    intro r h
    cases r with
    | nil => rfl
    | cons l r => simp only [List.map_nil, List.nil_append, List.takeWhile_cons, h l rfl]; rfl
  | cons v vs ih =>
    intro r h
    have hv : indented ("    ".toList ++ v) = true := by
      rw [indented, List.isPrefixOf_iff_prefix]; exact List.prefix_append _ _
    rw [List.map_cons, List.cons_append, List.takeWhile_cons, hv, if_pos rfl, List.map_cons, ih r h]
    rfl

theorem okName_notIndented {n : Str} (h : okName n = true) (r : Str) : indented (n ++ r) = false := by
  obtain ⟨c, s, rfl, h1, _⟩ := okName_head h
  rw [indented, Bool.eq_false_iff, ne_eq, List.isPrefixOf_iff_prefix]
  intro hp
  have : (' ' : Char) :: "   ".toList <+: c :: (s ++ r) := hp
  rw [List.cons_prefix_cons] at this
  exact h1 this.1.symm

theorem Field.notIndented {f : Field} (h : f.Ok) {r : List Str} (hr : NotIndented r) :
    NotIndented (f.lines ++ r) := by
  obtain ⟨fn, fns, b⟩ := f
  cases b with
  | absent => exact hr
  | mark =>
    intro l hl
    cases hl
    have := okName_notIndented h.name []
    rwa [List.append_nil] at this
  | one v =>
    intro l hl
    cases hl
    show indented (fn ++ ": ".toList ++ v) = false
    rw [List.append_assoc]; exact okName_notIndented h.name _
  | many vs =>
    intro l hl
    cases hl
    exact okName_notIndented h.names _

theorem Field.values {f : Field} (hf : f.Ok) (hm : f.body ≠ .mark) {r : List Str} (hr : NotIndented r)
    (hq : f.body = .absent → fieldValues f.name f.names r = []) :
    fieldValues f.name f.names (f.lines ++ r) = f.body.values := by
  obtain ⟨fn, fns, b⟩ := f
  cases b with
  | absent => exact hq rfl
  | mark => exact absurd rfl hm
  | one v =>
    show fieldValues fn fns ((fn ++ ": ".toList ++ v) :: r) = [v]
    have hp : (fn ++ ": ".toList).isPrefixOf (fn ++ ": ".toList ++ v) = true := by
      rw [List.isPrefixOf_iff_prefix]; exact List.prefix_append _ _
    rw [fieldValues, hp, if_pos rfl]
    have : fn.length + 2 = (fn ++ ": ".toList).length := by simp
    rw [this, List.drop_left]
  | many vs =>
    show fieldValues fn fns ((fns ++ ":".toList) :: (vs.map ("    ".toList ++ ·) ++ r)) = vs
    have hp : (fn ++ ": ".toList).isPrefixOf (fns ++ ":".toList) = false := by
      rw [Bool.eq_false_iff, ne_eq, List.isPrefixOf_iff_prefix]
      intro hp
      have he := prefix_colon " ".toList [] (okName_colon hf.name) (okName_colon hf.names) hp
      have hl := hp.length_le
      simp only [List.length_append] at hl
      have h2 : fn = fns := he
      rw [h2] at hl
      simp at hl
    rw [fieldValues, hp, if_neg (by simp), if_pos rfl]
    exact takeWhile_indented vs r hr

/-- The names of the fields are all different. -/
def namesDistinct : List (Str × Str) → Bool
  | [] => true
  | p :: r => okName p.1 && okName p.2 && r.all (fun q => q.1 ≠ p.1 && q.1 ≠ p.2 && q.2 ≠ p.1 && q.2 ≠ p.2) &&
      namesDistinct r

theorem namesDistinct_ok : ∀ {fs : List Field}, namesDistinct (fs.map fun f => (f.name, f.names)) = true →
    ∀ f ∈ fs, f.Ok := by
  intro fs
  induction fs with
  | nil => intro _ f hf; cases hf
  | cons g fs ih =>
    intro h f hf
    simp only [List.map_cons, namesDistinct, Bool.and_eq_true] at h
    rcases List.mem_cons.mp hf with rfl | hf
    · exact ⟨h.1.1.1, h.1.1.2⟩
    · exact ih h.2 f hf

theorem fields_notIndented : ∀ {fs : List Field}, (∀ f ∈ fs, f.Ok) → ∀ {r : List Str}, NotIndented r →
    NotIndented (fs.flatMap Field.lines ++ r) := by
  intro fs
  induction fs with
  | nil => intro _ r hr; exact hr
  | cons f fs ih =>
    intro h r hr
    rw [List.flatMap_cons, List.append_assoc]
    exact Field.notIndented (h f (List.mem_cons_self ..))
      (ih (fun g hg => h g (List.mem_cons_of_mem _ hg)) hr)

theorem namesDistinct_rel : ∀ {fs : List Field},
    namesDistinct (fs.map fun f => (f.name, f.names)) = true → ∀ g, ∀ f ∈ fs,
    namesDistinct ((g :: fs).map fun f => (f.name, f.names)) = true →
    f.name ≠ g.name ∧ f.names ≠ g.name ∧ f.name ≠ g.names ∧ f.names ≠ g.names := by
  intro fs _ g f hf h
  simp only [List.map_cons, namesDistinct, Bool.and_eq_true, List.all_eq_true, List.mem_map,
    decide_eq_true_eq] at h
  obtain ⟨⟨_, h⟩, _⟩ := h
  have := h (f.name, f.names) ⟨f, hf, rfl⟩
  simp only [bne_iff_ne, ne_eq, Bool.and_eq_true, decide_eq_true_eq, decide_not, Bool.not_eq_true',
    decide_eq_false_iff_not] at this
  exact ⟨this.1.1.1, this.1.2, this.1.1.2, this.2⟩

/-- The values of a field in a text made of fields with different names. -/
theorem fields_values : ∀ {fs : List Field},
    namesDistinct (fs.map fun f => (f.name, f.names)) = true → ∀ {r : List Str}, NotIndented r →
    (∀ f ∈ fs, ∀ l ∈ r, Quiet f.name f.names l) →
    ∀ f ∈ fs, f.body ≠ .mark →
    fieldValues f.name f.names (fs.flatMap Field.lines ++ r) = f.body.values := by
  intro fs
  induction fs with
  | nil => intro _ _ _ _ f hf; cases hf
  | cons g fs ih =>
    intro h r hr hq f hf hm
    have hok := namesDistinct_ok h
    have h2 : namesDistinct (fs.map fun f => (f.name, f.names)) = true := by
      simp only [List.map_cons, namesDistinct, Bool.and_eq_true] at h
      exact h.2
    have hni : NotIndented (fs.flatMap Field.lines ++ r) :=
      fields_notIndented (fun x hx => hok x (List.mem_cons_of_mem _ hx)) hr
    have hf0 := hok f hf
    rw [List.flatMap_cons, List.append_assoc]
    rcases List.mem_cons.mp hf with rfl | hf'
    · refine Field.values hf0 hm hni fun _ => ?_
      have : ∀ l ∈ fs.flatMap Field.lines ++ r, Quiet f.name f.names l := by
        intro l hl
        rcases List.mem_append.mp hl with hl | hl
        · obtain ⟨x, hx, hl⟩ := List.mem_flatMap.mp hl
          obtain ⟨a, b, c, d⟩ := namesDistinct_rel h2 f x hx h
          exact Field.quiet hf0.name hf0.names (hok x (List.mem_cons_of_mem _ hx))
            ⟨a.symm, c.symm, b.symm, d.symm⟩ l hl
        · exact hq f (List.mem_cons_self ..) l hl
      have := fieldValues_quiet [] this
      rw [List.append_nil] at this
      rw [this]; rfl
    · rw [fieldValues_quiet _ (Field.quiet hf0.name hf0.names (hok g (List.mem_cons_self ..))
        (namesDistinct_rel h2 g f hf' h))]
      exact ih h2 hr (fun x hx => hq x (List.mem_cons_of_mem _ hx)) f hf' hm


/-- A flag is shown by its name alone on a line. -/
theorem fields_mark : ∀ {fs : List Field},
    namesDistinct (fs.map fun f => (f.name, f.names)) = true → ∀ {r : List Str},
    (∀ f ∈ fs, f.name ∉ r) →
    ∀ f ∈ fs, (f.body = .mark ∨ f.body = .absent) →
    (f.name ∈ fs.flatMap Field.lines ++ r ↔ f.body = .mark) := by
  intro fs h r hr f hf hm
  have hok := namesDistinct_ok h
  have hf0 := hok f hf
  have self : f.name ∈ f.lines ↔ f.body = .mark := by
    obtain ⟨fn, fns, b⟩ := f
    rcases hm with hm | hm <;> (cases hm; simp [Field.lines])
  have other : ∀ g : Field, g.Ok → f.name ≠ g.name → f.name ∉ g.lines := by
    intro g hg hne hl
    have cf := okName_colon hf0.name
    obtain ⟨gn, gns, b⟩ := g
    cases b with
    | absent => simp [Field.lines] at hl
    | mark => simp only [Field.lines, List.mem_singleton] at hl; exact hne hl
    | one v =>
      simp only [Field.lines, List.mem_singleton] at hl
      exact cf (hl ▸ by simp)
    | many vs =>
      simp only [Field.lines, List.mem_cons, List.mem_map] at hl
      rcases hl with hl | ⟨v, _, hl⟩
      · exact cf (hl ▸ by simp)
      · obtain ⟨c, s, h1, h2, _⟩ := okName_head hf0.name
        rw [h1] at hl
        have : ' ' :: ("   ".toList ++ v) = c :: s := hl
        rw [List.cons.injEq] at this
        exact h2 this.1.symm
  have key : ∀ {fs : List Field}, namesDistinct (fs.map fun f => (f.name, f.names)) = true → f ∈ fs →
      (f.name ∈ fs.flatMap Field.lines ↔ f.body = .mark) := by
    intro fs
    induction fs with
    | nil => intro _ hf; cases hf
    | cons g fs ih =>
      intro h hf
      have hok := namesDistinct_ok h
      have h2 : namesDistinct (fs.map fun f => (f.name, f.names)) = true := by
        simp only [List.map_cons, namesDistinct, Bool.and_eq_true] at h
        exact h.2
      rw [List.flatMap_cons, List.mem_append]
      rcases List.mem_cons.mp hf with rfl | hf'
      · have : f.name ∉ fs.flatMap Field.lines := by
          intro hl
          obtain ⟨x, hx, hl⟩ := List.mem_flatMap.mp hl
          obtain ⟨a, _, _, _⟩ := namesDistinct_rel h2 f x hx h
          exact other x (hok x (List.mem_cons_of_mem _ hx)) a.symm hl
        rw [self]
        exact ⟨fun h => h.resolve_right this, .inl⟩
      · have : f.name ∉ g.lines :=
          other g (hok g (List.mem_cons_self ..)) (namesDistinct_rel h2 g f hf' h).1
        rw [ih h2 hf']
        exact ⟨fun h => h.resolve_left this, .inr⟩
  rw [List.mem_append, key h hf]
  exact ⟨fun h => h.resolve_right (hr f hf), .inl⟩

/-! ### Numbers -/

theorem digit_toNat {k : Nat} (h : k < 10) : (Char.ofNat (48 + k)).toNat = 48 + k := by
  have : ∀ k : Fin 10, (Char.ofNat (48 + k.val)).toNat = 48 + k.val := by decide
  exact this ⟨k, h⟩

theorem digitVal_digit {k : Nat} (h : k < 10) : digitVal (Char.ofNat (48 + k)) = some k := by
  rw [digitVal, digit_toNat h, if_pos ⟨by omega, by omega⟩]
  congr 1; omega

theorem decimal_digits (n : Nat) : ∀ c ∈ decimal n, ∃ k, k < 10 ∧ c = Char.ofNat (48 + k) := by
  induction n using decimal.induct with
  | case1 n h =>
    rw [decimal, dif_pos h]
    intro c hc
    rw [List.mem_singleton] at hc
    exact ⟨n, h, hc⟩
  | case2 n h ih =>
    rw [decimal, dif_neg h]
    intro c hc
    rcases List.mem_append.mp hc with hc | hc
    · exact ih c hc
    · rw [List.mem_singleton] at hc
      exact ⟨n % 10, by omega, hc⟩

/-- No character other than a digit is in a number. -/
theorem decimal_not (n : Nat) (c : Char) (h : digitVal c = none) : c ∉ decimal n := by
  intro hc
  obtain ⟨k, hk, rfl⟩ := decimal_digits n c hc
  rw [digitVal_digit hk] at h
  cases h

theorem readDigits_append : ∀ (a b : Str) (acc : Nat),
    readDigits acc (a ++ b) = (readDigits acc a).bind fun n => readDigits n b := by
  intro a
  induction a with
  | nil => intro b acc; rfl
  | cons c a ih =>
    intro b acc
    simp only [List.cons_append, readDigits]
    cases digitVal c with
    | none => rfl
    | some d => exact ih b _

theorem readDigits_decimal (n : Nat) : readDigits 0 (decimal n) = some n := by
  induction n using decimal.induct with
  | case1 n h =>
    rw [decimal, dif_pos h, readDigits, digitVal_digit h]
    simp [readDigits]
  | case2 n h ih =>
    rw [decimal, dif_neg h, readDigits_append, ih, Option.bind_some, readDigits,
      digitVal_digit (by omega : n % 10 < 10)]
    simp only [Option.bind_some, readDigits]
    congr 1; omega

theorem decimal_ne_nil (n : Nat) : decimal n ≠ [] := by
  rw [decimal]
  split
  · simp
  · simp

theorem readNat_decimal (n : Nat) : readNat (decimal n) = some n := by
  rw [readNat, if_neg (decimal_ne_nil n), readDigits_decimal]

theorem decimal_injective {n m : Nat} (h : decimal n = decimal m) : n = m := by
  have := readNat_decimal n
  rw [h, readNat_decimal] at this
  exact (Option.some.inj this).symm

theorem readSixty_decimal2 {n : Nat} (h : n < 60) : readSixty (decimal2 n) = some n := by
  have : ∀ k : Fin 60, readSixty (decimal2 k.val) = some k.val := by decide +kernel
  exact this ⟨n, h⟩

theorem decimal2_not (n : Nat) (c : Char) (h : digitVal c = none) : c ∉ decimal2 n := by
  rw [decimal2]
  split
  · intro hc
    rcases List.mem_cons.mp hc with rfl | hc
    · cases h
    · exact decimal_not n c h hc
  · exact decimal_not n c h

theorem stripEnd_append (suf s : Str) : stripEnd suf (s ++ suf) = some s := by
  have : suf.isSuffixOf (s ++ suf) = true := by
    rw [List.isSuffixOf_iff_suffix]; exact List.suffix_append _ _
  rw [stripEnd, this, if_pos rfl]
  simp

theorem stripEnd_last {suf s : Str} (h : suf.getLast? ≠ s.getLast?) (hs : suf ≠ []) : stripEnd suf s = none := by
  have : suf.isSuffixOf s = false := by
    rw [Bool.eq_false_iff, ne_eq, List.isSuffixOf_iff_suffix]
    rintro ⟨t, rfl⟩
    rw [List.getLast?_append] at h
    cases hl : suf.getLast? with
    | none => exact hs (List.getLast?_eq_none_iff.mp hl)
    | some x => rw [hl] at h; exact h rfl
  rw [stripEnd, this, if_neg (by simp)]

/-- Two suffixes of the same length are told apart. -/
theorem stripEnd_ne {suf suf' s : Str} (hl : suf.length = suf'.length) (h : suf ≠ suf') :
    stripEnd suf (s ++ suf') = none := by
  have : suf.isSuffixOf (s ++ suf') = false := by
    rw [Bool.eq_false_iff, ne_eq, List.isSuffixOf_iff_suffix]
    rintro ⟨t, ht⟩
    exact h (List.append_inj_right' ht hl)
  rw [stripEnd, this, if_neg (by simp)]

/-- A suffix longer than what is there after the digits. -/
theorem stripEnd_digit {n : Nat} (c d : Char) (h : digitVal c = none) :
    stripEnd [c, d] (decimal n ++ [d]) = none := by
  have : [c, d].isSuffixOf (decimal n ++ [d]) = false := by
    rw [Bool.eq_false_iff, ne_eq, List.isSuffixOf_iff_suffix]
    rintro ⟨t, ht⟩
    have : (t ++ [c]) ++ [d] = decimal n ++ [d] := by rw [List.append_assoc]; exact ht
    have := List.append_inj_left' this rfl
    exact decimal_not n c h (this ▸ by simp)
  rw [stripEnd, this, if_neg (by simp)]

/-! ### Durations -/

theorem durationParts_eq (h m s ml u n : Nat) : durationParts h m s ml u n =
    if h = 0 then
      if m = 0 then
        if s = 0 then
          if ml = 0 then
            if u = 0 then decimal n ++ "ns".toList else decimal u ++ "µs".toList
          else decimal ml ++ "ms".toList
        else decimal s ++ "s".toList
      else decimal m ++ ':' :: decimal2 s
    else decimal h ++ ':' :: (decimal2 m ++ ':' :: decimal2 s) := by
  rcases h with _ | h
  · rcases m with _ | m
    · rcases s with _ | s
      · rcases ml with _ | ml
        · rcases u with _ | u <;> rfl
        · rfl
      · rfl
    · rw [if_pos rfl, if_neg (by omega)]
      simp [durationParts]
  · rw [if_neg (by omega)]
    simp [durationParts]

theorem durationText_cases (d : Nat) : durationText d =
    if d < 10^3 then decimal d ++ "ns".toList
    else if d < 10^6 then decimal (d / 10^3) ++ "µs".toList
    else if d < 10^9 then decimal (d / 10^6) ++ "ms".toList
    else if d / 10^9 < 60 then decimal (d / 10^9) ++ "s".toList
    else if d / 10^9 < 3600 then decimal (d / 10^9 / 60) ++ ':' :: decimal2 (d / 10^9 % 60)
    else decimal (d / 10^9 / 3600) ++ ':' :: (decimal2 (d / 10^9 / 60 % 60) ++ ':' :: decimal2 (d / 10^9 % 60)) := by
  have e3 : (10:Nat)^3 = 1000 := rfl
  have e6 : (10:Nat)^6 = 1000000 := rfl
  have e9 : (10:Nat)^9 = 1000000000 := rfl
  rw [e3, e6, e9]
  simp only [durationText, durationParts_eq]
  by_cases h1 : d < 1000
  · rw [if_pos (by omega), if_pos (by omega), if_pos (by omega), if_pos (by omega), if_pos (by omega),
      if_pos h1, Nat.mod_eq_of_lt (by omega)]
  rw [if_neg h1]
  by_cases h2 : d < 1000000
  · rw [if_pos (by omega), if_pos (by omega), if_pos (by omega), if_pos (by omega), if_neg (by omega),
      if_pos h2, Nat.mod_eq_of_lt (by omega)]
  rw [if_neg h2]
  by_cases h3 : d < 1000000000
  · rw [if_pos (by omega), if_pos (by omega), if_pos (by omega), if_neg (by omega), if_pos h3,
      Nat.mod_eq_of_lt (by omega)]
  rw [if_neg h3]
  by_cases h4 : d / 1000000000 < 60
  · rw [if_pos (by omega), if_pos (by omega), if_neg (by omega), if_pos h4, Nat.mod_eq_of_lt h4]
  rw [if_neg h4]
  by_cases h5 : d / 1000000000 < 3600
  · rw [if_pos (by omega), if_neg (by omega), if_pos h5, Nat.mod_eq_of_lt (by omega)]
  rw [if_neg h5, if_neg (by omega)]
  rw [Nat.div_div_eq_div_mul _ 60 60]

theorem readDuration_text (d : Nat) :
    readDuration (durationText d) = some (d / durationUnit d, durationUnit d) := by
  have nc : digitVal ':' = none := by decide
  rw [durationText_cases, durationUnit]
  have one : ∀ (n : Nat) (suf : Str), ':' ∉ suf → textPieces ':' (decimal n ++ suf) = [decimal n ++ suf] := by
    intro n suf h
    refine textPieces_none fun hc => ?_
    rcases List.mem_append.mp hc with hc | hc
    · exact decimal_not n _ nc hc
    · exact h hc
  split
  · simp only [readDuration, one d "ns".toList (by decide), stripEnd_append, readNat_decimal, Nat.div_one,
      Option.map_some]
  split
  · simp only [readDuration, one _ "µs".toList (by decide), stripEnd_append, readNat_decimal,
      stripEnd_ne (suf := "ns".toList) (suf' := "µs".toList) rfl (by decide), Option.map_some]
  split
  · simp only [readDuration, one _ "ms".toList (by decide), stripEnd_append, readNat_decimal,
      stripEnd_ne (suf := "ns".toList) (suf' := "ms".toList) rfl (by decide),
      stripEnd_ne (suf := "µs".toList) (suf' := "ms".toList) rfl (by decide), Option.map_some]
  split
  · simp only [readDuration, one _ "s".toList (by decide), stripEnd_append, readNat_decimal,
      show stripEnd "ns".toList (decimal (d / 10^9) ++ "s".toList) = none from stripEnd_digit 'n' 's' (by decide),
      show stripEnd "ms".toList (decimal (d / 10^9) ++ "s".toList) = none from stripEnd_digit 'm' 's' (by decide),
      show stripEnd "µs".toList (decimal (d / 10^9) ++ "s".toList) = none from stripEnd_digit 'µ' 's' (by decide),
      Option.map_some]
  split
  · rw [readDuration, textPieces_append _ (decimal_not _ _ nc), textPieces_none (decimal2_not _ _ nc)]
    simp only [readNat_decimal, readSixty_decimal2 (Nat.mod_lt _ (by omega : 60 > 0)), Option.bind_some]
    congr 2; omega
  · rw [readDuration, textPieces_append _ (decimal_not _ _ nc), textPieces_append _ (decimal2_not _ _ nc),
      textPieces_none (decimal2_not _ _ nc)]
    simp only [readNat_decimal, readSixty_decimal2 (Nat.mod_lt _ (by omega : 60 > 0)), Option.bind_some]
    congr 2; omega

/-! ### Pairs and images -/

theorem readImage_format (i : Img) :
    readImage (formatArtwork i) = some (i.fmt, i.data.length / imageUnit i.data.length, imageUnit i.data.length) := by
  have ns : digitVal ' ' = none := by decide
  have key : ∀ (f : ImgFmt) (fs : Str) (n : Nat) (suf : Str), ' ' ∉ fs → ' ' ∉ suf →
      textPieces ' ' (fs ++ (" ".toList ++ decimal n ++ suf)) = [fs, decimal n ++ suf] := by
    intro f fs n suf h1 h2
    rw [List.append_assoc]
    show textPieces ' ' (fs ++ ' ' :: (decimal n ++ suf)) = _
    rw [textPieces_append _ h1, textPieces_none]
    intro hc
    rcases List.mem_append.mp hc with hc | hc
    · exact decimal_not n _ ns hc
    · exact h2 hc
  have last : ∀ n, ∃ k, k < 10 ∧ (decimal n).getLast? = some (Char.ofNat (48 + k)) := by
    intro n
    cases hl : (decimal n).getLast? with
    | none => exact absurd (List.getLast?_eq_none_iff.mp hl) (decimal_ne_nil n)
    | some c =>
      obtain ⟨k, hk, rfl⟩ := decimal_digits n c (List.mem_of_getLast? hl)
      exact ⟨k, hk, rfl⟩
  have nolast : ∀ (n : Nat) (c : Char), digitVal c = none → stripEnd [c] (decimal n) = none := by
    intro n c hc
    refine stripEnd_last ?_ (by simp)
    obtain ⟨k, hk, h⟩ := last n
    rw [h]
    intro e
    simp only [List.getLast?_singleton, Option.some.injEq] at e
    subst e
    rw [digitVal_digit hk] at hc; cases hc
  have size : ∀ (fs : Str), ' ' ∉ fs → ∀ f : ImgFmt,
      (if fs = "png".toList then some ImgFmt.png else if fs = "jpeg".toList then some .jpeg
        else if fs = "bmp".toList then some .bmp else none) = some f →
      readImage (fs ++ (if i.data.length < 1024 then " ".toList ++ decimal i.data.length
        else if i.data.length < 1024 * 1024 then " ".toList ++ decimal (i.data.length / 1024) ++ "k".toList
        else " ".toList ++ decimal (i.data.length / (1024 * 1024)) ++ "M".toList))
      = some (f, i.data.length / imageUnit i.data.length, imageUnit i.data.length) := by
    intro fs h1 f hf
    rw [imageUnit]
    split
    · have := key f fs i.data.length [] h1 (by simp)
      rw [List.append_nil, List.append_nil] at this
      simp only [readImage, this, hf, Option.bind_some,
        show stripEnd "k".toList (decimal i.data.length) = none from nolast _ 'k' (by decide),
        show stripEnd "M".toList (decimal i.data.length) = none from nolast _ 'M' (by decide),
        readNat_decimal, Option.map_some, Nat.div_one]
    split
    · simp only [readImage, key f fs _ "k".toList h1 (by decide), hf, Option.bind_some, stripEnd_append,
        readNat_decimal, Option.map_some]
    · simp only [readImage, key f fs _ "M".toList h1 (by decide), hf, Option.bind_some, stripEnd_append,
        stripEnd_ne (suf := "k".toList) (suf' := "M".toList) rfl (by decide),
        readNat_decimal, Option.map_some]
  obtain ⟨f, v⟩ := i
  cases f
  · exact size "bmp".toList (by decide) .bmp (by decide)
  · exact size "jpeg".toList (by decide) .jpeg (by decide)
  · exact size "png".toList (by decide) .png (by decide)


/-- The text of a pair. -/
def pairText : Option Nat × Option Nat → Option Str
  | (some d, some n) => some (decimal d ++ " of ".toList ++ decimal n)
  | (some d, none) => some (decimal d)
  | (none, some n) => some ("? of ".toList ++ decimal n)
  | (none, none) => none

theorem readPair_text (p : Option Nat × Option Nat) (s : Str) (h : pairText p = some s) :
    readPair s = some p := by
  have ns : digitVal ' ' = none := by decide
  have two : ∀ (a : Str) (n : Nat), ' ' ∉ a →
      textPieces ' ' (a ++ " of ".toList ++ decimal n) = [a, "of".toList, decimal n] := by
    intro a n ha
    have : a ++ " of ".toList ++ decimal n = a ++ ' ' :: ("of".toList ++ ' ' :: decimal n) := by simp
    rw [this, textPieces_append _ ha, textPieces_append _ (by decide), textPieces_none (decimal_not _ _ ns)]
  obtain ⟨_ | d, _ | n⟩ := p
  · cases h
  · cases h
    have := two "?".toList n (by decide)
    have e : "? of ".toList ++ decimal n = "?".toList ++ " of ".toList ++ decimal n := rfl
    simp only [readPair, e, this, readNat_decimal, Option.bind_some]
    rfl
  · cases h
    simp only [readPair, textPieces_none (decimal_not _ _ ns), readNat_decimal, Option.map_some]
  · cases h
    have hq : decimal d ≠ "?".toList := by
      intro e
      have := decimal_not d '?' (by decide)
      exact this (e ▸ by decide)
    simp only [readPair, two _ n (decimal_not _ _ ns), readNat_decimal, Option.bind_some, if_neg hq]
    rfl

/-! ### The whole text -/

/-- A field with at most one value. -/
def optField (name : Str) (v : Option Str) : Field :=
  ⟨name, name, match v with | some s => .one s | none => .absent⟩
/-- A field with any number of values. -/
def listField (name names : Str) (vs : List Str) (first : Option Str) : Field :=
  ⟨name, names, if vs.length > 1 then .many vs else match first with | some s => .one s | none => .absent⟩
/-- A flag. -/
def markField (name : Str) (b : Bool) : Field := ⟨name, name, if b then .mark else .absent⟩

theorem optLine_field (name : Str) (v : Option Str) : optLine name v = (optField name v).lines.flatMap line := by
  cases v <;> simp [optLine, optField, Field.lines]

theorem listLines_field (name names : Str) (vs : List Str) (first : Option Str) :
    listLines name names vs first = (listField name names vs first).lines.flatMap line := by
  rw [listLines]
  split
  · next h =>
    simp [listField, h, Field.lines, List.flatMap_map]
  · next h =>
    cases first <;> simp [listField, h, optLine, Field.lines]

theorem markField_line (name : Str) (b : Bool) :
    (if b then line name else []) = (markField name b).lines.flatMap line := by
  cases b <;> simp [markField, Field.lines]

theorem formatPair_field (t : Tag) (name : Str) (i : Ident) :
    t.formatPair name i = (optField name (pairText (t.getPair i))).lines.flatMap line := by
  rw [Tag.formatPair, ← optLine_field]
  rcases t.getPair i with ⟨_ | d, _ | n⟩ <;> simp [pairText, optLine]

/-- A field of a multi-valued string. -/
def multiF (t : Tag) (vi : String) : Field :=
  listField (valueName vi) (pluralName (valueName vi)) (t.getStrings (macroIdent! vi)) (t.getString (macroIdent! vi))
/-- A field of a single string. -/
def singleF (t : Tag) (vi : String) : Field := optField (valueName vi) (t.getString (macroIdent! vi))
/-- A field of an integer. -/
def intF (t : Tag) (vi : String) (size : Nat) : Field :=
  optField (valueName vi) ((t.getInt (macroIdent! vi) size).map decimal)
/-- A field of a flag. -/
def flagF (t : Tag) (vi : String) : Field := markField (valueName vi) (t.getFlag (macroIdent! vi))

/-- The fields of the text, in order. -/
def fields (t : Tag) : List Field := [
  multiF t "album_artist", multiF t "artist", multiF t "composer", multiF t "lyricist",
  singleF t "album", singleF t "title", listField "genre".toList "genres".toList t.genres t.genre,
  singleF t "year", optField "track".toList (pairText (t.getPair trackI)),
  optField "disc".toList (pairText (t.getPair discI)),
  listField "artwork".toList "artworks".toList (t.artworks.map formatArtwork) (t.artwork.map formatArtwork),
  optField "advisory rating".toList (t.advisoryRating.map AdvisoryRating.display),
  optField "media type".toList (t.mediaType.map MediaType.display),
  multiF t "grouping", multiF t "description", multiF t "comment", multiF t "category", multiF t "keyword",
  singleF t "copyright", singleF t "encoder", singleF t "tv_show_name", singleF t "tv_network_name",
  singleF t "tv_episode_name", intF t "tv_episode" 4, intF t "tv_season" 4, intF t "bpm" 2,
  singleF t "movement", singleF t "work", intF t "movement_count" 2, intF t "movement_index" 2,
  optField "duration".toList (t.duration.map durationText),
  optField "channel config".toList (t.channelConfig.map ChannelConfig.display),
  optField "sample rate".toList (t.sampleRate.map SampleRate.display),
  optField "average bitrate".toList (t.avgBitrate.map fun c => decimal (c / 1024) ++ "kbps".toList),
  optField "maximum bitrate".toList (t.maxBitrate.map fun c => decimal (c / 1024) ++ "kbps".toList),
  flagF t "show_movement", flagF t "gapless_playback", flagF t "compilation",
  singleF t "isrc", singleF t "lyrics"]

/-- The lines of the freeform entries. -/
def freeformLines (esc : Char → Str) (t : Tag) : List Str :=
  t.atoms.flatMap fun a => match a.ident with
    | .freeform _ _ => (a.ident.display ++ ":".toList) :: a.data.map fun d => "    ".toList ++ d.debug esc
    | .fourcc _ => []

/-- All lines of the text. -/
def displayLines (esc : Char → Str) (t : Tag) : List Str :=
  (fields t).flatMap Field.lines ++ (freeformLines esc t ++ ["filetype: ".toList ++ t.filetype])

theorem formatFreeform_lines (esc : Char → Str) (t : Tag) :
    t.atoms.flatMap (AtomData.formatFreeform esc) = (freeformLines esc t).flatMap line := by
  rw [freeformLines, List.flatMap_assoc]
  congr 1
  funext a
  obtain ⟨i, ds⟩ := a
  cases i with
  | fourcc f => simp [AtomData.formatFreeform]
  | freeform m n => simp [AtomData.formatFreeform, List.flatMap_map]

theorem formatMulti_field (t : Tag) (vi : String) : t.formatMulti vi = (multiF t vi).lines.flatMap line :=
  listLines_field ..
theorem formatSingle_field (t : Tag) (vi : String) : t.formatSingle vi = (singleF t vi).lines.flatMap line :=
  optLine_field ..
theorem formatInt_field (t : Tag) (vi : String) (n : Nat) : t.formatInt vi n = (intF t vi n).lines.flatMap line :=
  optLine_field ..
theorem formatFlag_field (t : Tag) (vi : String) : t.formatFlag vi = (flagF t vi).lines.flatMap line :=
  markField_line ..

theorem flatMap_line_cons (f : Field) (fs : List Field) :
    ((f :: fs).flatMap Field.lines).flatMap line = f.lines.flatMap line ++ (fs.flatMap Field.lines).flatMap line := by
  rw [List.flatMap_cons, List.flatMap_append]

theorem display_lines (esc : Char → Str) (t : Tag) : t.display esc = (displayLines esc t).flatMap line := by
  rw [displayLines, List.flatMap_append, List.flatMap_append]
  unfold fields
  repeat rw [flatMap_line_cons]
  unfold Tag.display Tag.formatGenres Tag.formatArtworks Tag.formatAdvisoryRating
    Tag.formatMediaType Tag.formatDuration Tag.formatChannelConfig Tag.formatSampleRate
    Tag.formatAvgBitrate Tag.formatMaxBitrate
  repeat rw [formatMulti_field]
  repeat rw [formatSingle_field]
  repeat rw [formatInt_field]
  repeat rw [formatFlag_field]
  repeat rw [formatPair_field]
  repeat rw [optLine_field]
  repeat rw [listLines_field]
  rw [formatFreeform_lines]
  repeat rw [List.append_assoc]
  rw [List.flatMap_nil, List.flatMap_nil, List.nil_append, List.flatMap_singleton]

theorem fields_names (t : Tag) : (fields t).map (fun f => (f.name, f.names)) =
    (fields {}).map (fun f => (f.name, f.names)) := by
  simp only [fields, multiF, singleF, intF, flagF, listField, optField, markField, List.map_cons, List.map_nil]

theorem fields_distinct (t : Tag) : namesDistinct ((fields t).map fun f => (f.name, f.names)) = true := by
  rw [fields_names]
  decide +kernel

/-! ### No line breaks -/

theorem string_mem {t : Tag} (ht : OneLine t) {i : Ident} {s : Str} (h : s ∈ t.stringsOf i) : '\n' ∉ s := by
  obtain ⟨d, hd, hs⟩ := List.mem_filterMap.mp h
  have hds : d = .utf8 s ∨ d = .utf16 s := by
    cases d <;> simp only [Data.string?] at hs <;> cases hs
    · exact .inl rfl
    · exact .inr rfl
  rw [Tag.dataOf] at hd
  cases hf : findAtom i t.atoms with
  | none => rw [hf] at hd; cases hd
  | some a =>
    rw [hf] at hd
    exact ht.value a (List.mem_of_find?_eq_some hf) d hd s hds

theorem getString_mem {t : Tag} (ht : OneLine t) {i : Ident} {s : Str} (h : t.getString i = some s) : '\n' ∉ s :=
  string_mem ht (List.mem_of_head? h)

theorem genreName_nl {c : Nat} {s : Str} (h : stdGenreName c = some s) : '\n' ∉ s := by
  rw [stdGenreName] at h
  have key : ∀ g ∈ STANDARD_GENRES, '\n' ∉ g.toList := by decide +kernel
  split at h
  · cases hg : STANDARD_GENRES[c - 1]? with
    | none => rw [hg] at h; cases h
    | some g =>
      rw [hg] at h
      cases h
      exact key g (List.mem_of_getElem? hg)
  · cases h


/-- The values of a field are lines. -/
def Field.NoNl (f : Field) : Prop := ∀ v ∈ f.body.values, '\n' ∉ v

theorem Field.lines_nl {f : Field} (h : f.Ok) (hv : f.NoNl) : ∀ l ∈ f.lines, '\n' ∉ l := by
  have hn := okName_nl h.name
  have hns := okName_nl h.names
  obtain ⟨fn, fns, b⟩ := f
  intro l hl
  cases b with
  | absent => simp [Field.lines] at hl
  | mark => simp only [Field.lines, List.mem_singleton] at hl; subst hl; exact hn
  | one v =>
    simp only [Field.lines, List.mem_singleton] at hl
    subst hl
    have := hv v (by simp [Body.values])
    simp only [List.mem_append, not_or]
    exact ⟨⟨hn, by decide⟩, this⟩
  | many vs =>
    simp only [Field.lines, List.mem_cons, List.mem_map] at hl
    rcases hl with rfl | ⟨v, hv', rfl⟩
    · simp only [List.mem_append, not_or]; exact ⟨hns, by decide⟩
    · have := hv v hv'
      simp only [List.mem_append, not_or]; exact ⟨by decide, this⟩

theorem optField_nl {name : Str} {v : Option Str} (h : ∀ s, v = some s → '\n' ∉ s) : (optField name v).NoNl := by
  cases v with
  | none => intro v hv; simp [optField, Body.values] at hv
  | some s => intro v hv; simp [optField, Body.values] at hv; subst hv; exact h _ rfl

theorem listField_nl {name names : Str} {vs : List Str} {v : Option Str} (hs : ∀ s ∈ vs, '\n' ∉ s)
    (h : ∀ s, v = some s → '\n' ∉ s) : (listField name names vs v).NoNl := by
  intro x hx
  by_cases hl : vs.length > 1
  · simp only [listField, if_pos hl, Body.values] at hx; exact hs x hx
  · simp only [listField, if_neg hl] at hx
    exact optField_nl (name := name) h x hx

theorem markField_nl {name : Str} {b : Bool} : (markField name b).NoNl := by
  intro v hv
  cases b <;> simp [markField, Body.values] at hv

theorem multiF_nl {t : Tag} (ht : OneLine t) (vi : String) : (multiF t vi).NoNl :=
  listField_nl (fun _ h => string_mem ht h) (fun _ h => getString_mem ht h)
theorem singleF_nl {t : Tag} (ht : OneLine t) (vi : String) : (singleF t vi).NoNl :=
  optField_nl fun _ h => getString_mem ht h
theorem decimal_nl (n : Nat) : '\n' ∉ decimal n := decimal_not n _ (by decide)
theorem decimal2_nl (n : Nat) : '\n' ∉ decimal2 n := decimal2_not n _ (by decide)
theorem optMap_nl {α} {name : Str} {o : Option α} {f : α → Str} (h : ∀ x, '\n' ∉ f x) :
    (optField name (o.map f)).NoNl := by
  refine optField_nl fun s hs => ?_
  cases o with
  | none => cases hs
  | some x => cases hs; exact h x
theorem intF_nl (t : Tag) (vi : String) (n : Nat) : (intF t vi n).NoNl := optMap_nl decimal_nl
theorem flagF_nl (t : Tag) (vi : String) : (flagF t vi).NoNl := markField_nl
theorem pair_nl (name : Str) (p : Option Nat × Option Nat) : (optField name (pairText p)).NoNl := by
  refine optField_nl fun s hs => ?_
  obtain ⟨_ | d, _ | n⟩ := p <;> cases hs
  · simp only [List.mem_append, not_or]; exact ⟨by decide, decimal_nl n⟩
  · exact decimal_nl d
  · simp only [List.mem_append, not_or]; exact ⟨⟨decimal_nl d, by decide⟩, decimal_nl n⟩

theorem formatArtwork_nl (i : Img) : '\n' ∉ formatArtwork i := by
  obtain ⟨f, v⟩ := i
  simp only [formatArtwork, List.mem_append, not_or]
  refine ⟨by cases f <;> decide, ?_⟩
  split
  · simp only [List.mem_append, not_or]; exact ⟨by decide, decimal_nl _⟩
  · split
    · simp only [List.mem_append, not_or]; exact ⟨⟨by decide, decimal_nl _⟩, by decide⟩
    · simp only [List.mem_append, not_or]; exact ⟨⟨by decide, decimal_nl _⟩, by decide⟩

theorem durationText_nl (d : Nat) : '\n' ∉ durationText d := by
  rw [durationText_cases]
  split
  · simp only [List.mem_append, not_or]; exact ⟨decimal_nl _, by decide⟩
  split
  · simp only [List.mem_append, not_or]; exact ⟨decimal_nl _, by decide⟩
  split
  · simp only [List.mem_append, not_or]; exact ⟨decimal_nl _, by decide⟩
  split
  · simp only [List.mem_append, not_or]; exact ⟨decimal_nl _, by decide⟩
  split
  · simp only [List.mem_append, List.mem_cons, not_or]; exact ⟨decimal_nl _, by decide, decimal2_nl _⟩
  · simp only [List.mem_append, List.mem_cons, not_or]
    exact ⟨decimal_nl _, by decide, decimal2_nl _, by decide, decimal2_nl _⟩

theorem genres_nl {t : Tag} (ht : OneLine t) : ∀ s ∈ t.genres, '\n' ∉ s := by
  intro s hs
  rcases List.mem_append.mp hs with hs | hs
  · obtain ⟨c, _, hc⟩ := List.mem_filterMap.mp hs
    exact genreName_nl hc
  · exact string_mem ht hs

theorem genre_nl {t : Tag} (ht : OneLine t) {s : Str} (h : t.genre = some s) : '\n' ∉ s := by
  rw [Tag.genre] at h
  split at h
  · next g hg =>
    cases h
    obtain ⟨c, _, hc⟩ := Option.bind_eq_some_iff.mp hg
    exact genreName_nl hc
  · exact getString_mem ht h

theorem fields_nl {t : Tag} (ht : OneLine t) : ∀ f ∈ fields t, f.NoNl := by
  intro f hf
  simp only [fields, List.mem_cons, List.not_mem_nil, or_false] at hf
  have m := multiF_nl ht
  have s := singleF_nl ht
  have i := intF_nl t
  have b := flagF_nl t
  have p := pair_nl
  rcases hf with rfl | rfl | rfl | rfl | rfl | rfl | rfl | rfl | rfl | rfl | rfl | rfl | rfl | rfl | rfl | rfl |
    rfl | rfl | rfl | rfl | rfl | rfl | rfl | rfl | rfl | rfl | rfl | rfl | rfl | rfl | rfl | rfl | rfl | rfl |
    rfl | rfl | rfl | rfl | rfl | rfl
  case inr.inr.inr.inr.inr.inr.inl => exact listField_nl (genres_nl ht) fun _ h => genre_nl ht h
  all_goals first
    | exact m _
    | exact s _
    | exact i _ _
    | exact b _
    | exact p _ _
    | exact optMap_nl fun d => durationText_nl d
    | skip
  · refine listField_nl (fun s hs => ?_) (fun s hs => ?_)
    · obtain ⟨i, _, rfl⟩ := List.mem_map.mp hs
      exact formatArtwork_nl i
    · cases ha : t.artwork with
      | none => rw [ha] at hs; cases hs
      | some a => rw [ha] at hs; cases hs; exact formatArtwork_nl a
  · exact optMap_nl fun r => by cases r <;> decide
  · exact optMap_nl fun r => by cases r <;> decide
  · exact optMap_nl fun r => by cases r <;> decide
  · exact optMap_nl fun r => by
      simp only [SampleRate.display, List.mem_append, not_or]; exact ⟨decimal_nl _, by decide⟩
  · exact optMap_nl fun r => by
      simp only [List.mem_append, not_or]; exact ⟨decimal_nl _, by decide⟩
  · exact optMap_nl fun r => by
      simp only [List.mem_append, not_or]; exact ⟨decimal_nl _, by decide⟩

theorem debugBytes_nl (v : Bytes) : '\n' ∉ debugBytes v := by
  have key : ∀ l : List Str, (∀ s ∈ l, '\n' ∉ s) → '\n' ∉ List.intercalate ", ".toList l := by
    intro l
    induction l with
    | nil => intro _; simp [List.intercalate]
    | cons a l ih =>
      intro h
      have ha := h a (List.mem_cons_self ..)
      have hl := ih fun s hs => h s (List.mem_cons_of_mem _ hs)
      cases l with
      | nil => simpa [List.intercalate] using ha
      | cons b l =>
        simp only [List.intercalate, List.intersperse, List.flatten_cons, List.mem_append, not_or] at hl ⊢
        exact ⟨ha, by decide, hl⟩
  simp only [debugBytes, List.mem_cons, List.mem_append, not_or]
  refine ⟨by decide, key _ ?_, by decide⟩
  intro s hs
  obtain ⟨b, _, rfl⟩ := List.mem_map.mp hs
  exact decimal_nl _

/-- Two texts up to their first comma. -/
theorem comma_split : ∀ {a b r r' : Str}, ',' ∉ a → ',' ∉ b → a ++ ',' :: r = b ++ ',' :: r' → a = b ∧ r = r' := by
  intro a
  induction a with
  | nil =>
    intro b r r' _ hb h
    cases b with
    | nil => exact ⟨rfl, (List.cons.inj h).2⟩
    | cons c b => exact absurd (by rw [(List.cons.inj h).1]; exact List.mem_cons_self) hb
  | cons x a ih =>
    intro b r r' ha hb h
    cases b with
    | nil => exact absurd (by rw [← (List.cons.inj h).1]; exact List.mem_cons_self) ha
    | cons c b =>
      obtain ⟨h1, h2⟩ := List.cons.inj h
      obtain ⟨h3, h4⟩ := ih (fun m => ha (List.mem_cons_of_mem _ m)) (fun m => hb (List.mem_cons_of_mem _ m)) h2
      exact ⟨by rw [h1, h3], h4⟩

theorem intercalate_cons2 (a b : Str) (l : List Str) :
    List.intercalate ", ".toList (a :: b :: l) = a ++ ',' :: ' ' :: List.intercalate ", ".toList (b :: l) := by
  simp only [List.intercalate, List.intersperse, List.flatten_cons]; rfl

theorem intercalate_one (a : Str) : List.intercalate ", ".toList [a] = a := by
  simp [List.intercalate]

/-- A list of numbers is determined by its text. -/
theorem decimals_inj : ∀ {v w : Bytes},
    List.intercalate ", ".toList (v.map fun b => decimal b.toNat) = List.intercalate ", ".toList (w.map fun b => decimal b.toNat) →
    v = w := by
  have hc : ∀ n, ',' ∉ decimal n := fun n => decimal_not n _ (by decide)
  have h8 : ∀ {a b : UInt8}, decimal a.toNat = decimal b.toNat → a = b := fun h => UInt8.toNat_inj.mp (decimal_injective h)
  have none : ∀ (a : UInt8) (l : Bytes), List.intercalate ", ".toList ((a :: l).map fun b => decimal b.toNat) ≠ [] := by
    intro a l h
    cases l with
    | nil => rw [List.map_cons, List.map_nil, intercalate_one] at h; exact decimal_ne_nil _ h
    | cons b l => rw [List.map_cons, List.map_cons, intercalate_cons2] at h; simp at h
  intro v
  induction v with
  | nil =>
    intro w h
    cases w with
    | nil => rfl
    | cons a l => exact absurd h.symm (none a l)
  | cons a l ih =>
    intro w h
    cases w with
    | nil => exact absurd h (none a l)
    | cons b m =>
      cases l with
      | nil =>
        cases m with
        | nil =>
          rw [List.map_cons, List.map_nil, intercalate_one, List.map_cons, List.map_nil, intercalate_one] at h
          rw [h8 h]
        | cons c m =>
          rw [List.map_cons, List.map_nil, intercalate_one, List.map_cons, List.map_cons, intercalate_cons2] at h
          exact absurd (by rw [h]; simp) (hc a.toNat)
      | cons a' l =>
        cases m with
        | nil =>
          rw [List.map_cons, List.map_cons, intercalate_cons2, List.map_cons, List.map_nil, intercalate_one] at h
          exact absurd (by rw [← h]; simp) (hc b.toNat)
        | cons c m =>
          rw [List.map_cons, List.map_cons, intercalate_cons2, List.map_cons, List.map_cons, intercalate_cons2] at h
          obtain ⟨h1, h2⟩ := comma_split (hc _) (hc _) h
          rw [h8 h1, ih (w := c :: m) (List.cons.inj h2).2]

theorem debugBytes_inj {v w : Bytes} (h : debugBytes v = debugBytes w) : v = w := by
  rw [debugBytes, debugBytes] at h
  exact decimals_inj (List.append_cancel_right (List.cons.inj h).2)

/-- Escaped texts are told apart if no escaped character starts with another one. -/
theorem escaped_inj {esc : Char → Str} (he : ∀ c c', esc c <+: esc c' → c = c') (hn : ∀ c, esc c ≠ []) :
    ∀ {s s' : Str}, s.flatMap esc = s'.flatMap esc → s = s' := by
  intro s
  induction s with
  | nil =>
    intro s' h
    cases s' with
    | nil => rfl
    | cons c s' => rw [List.flatMap_cons] at h; exact absurd (List.append_eq_nil_iff.mp h.symm).1 (hn c)
  | cons c s ih =>
    intro s' h
    cases s' with
    | nil => rw [List.flatMap_cons] at h; exact absurd (List.append_eq_nil_iff.mp h).1 (hn c)
    | cons c' s' =>
      rw [List.flatMap_cons, List.flatMap_cons] at h
      have h1 : esc c <+: esc c' ++ s'.flatMap esc := ⟨_, h⟩
      have h2 : esc c' <+: esc c' ++ s'.flatMap esc := ⟨_, rfl⟩
      have : c = c' := by
        rcases Nat.le_total (esc c).length (esc c').length with hl | hl
        · exact he _ _ (List.prefix_of_prefix_length_le h1 h2 hl)
        · exact (he _ _ (List.prefix_of_prefix_length_le h2 h1 hl)).symm
      subst this
      rw [ih (List.append_cancel_left h)]

theorem debugStr_inj {esc : Char → Str} (he : ∀ c c', esc c <+: esc c' → c = c') (hn : ∀ c, esc c ≠ []) {s s' : Str}
    (h : debugStr esc s = debugStr esc s') : s = s' := by
  rw [debugStr, debugStr] at h
  exact escaped_inj he hn (List.append_cancel_right (List.cons.inj h).2)

theorem debug_nl {esc : Char → Str} (he : ∀ c, '\n' ∉ esc c) (d : Data) : '\n' ∉ d.debug esc := by
  have hs : ∀ s, '\n' ∉ debugStr esc s := by
    intro s
    simp only [debugStr, List.mem_cons, List.mem_append, List.mem_flatMap, not_or, not_exists, not_and]
    exact ⟨by decide, fun c _ => he c, by decide⟩
  have three : ∀ a b c : Str, '\n' ∉ a → '\n' ∉ b → '\n' ∉ c → '\n' ∉ a ++ b ++ c := by
    intro a b c ha hb hc
    simp only [List.mem_append, not_or]
    exact ⟨⟨ha, hb⟩, hc⟩
  cases d with
  | reserved v => exact three _ _ _ (by decide +kernel) (debugBytes_nl v) (by decide +kernel)
  | utf8 s => exact three _ _ _ (by decide +kernel) (hs s) (by decide +kernel)
  | utf16 s => exact three _ _ _ (by decide +kernel) (hs s) (by decide +kernel)
  | jpeg v => exact (by decide +kernel : '\n' ∉ "Data::Jpeg".toList)
  | png v => exact (by decide +kernel : '\n' ∉ "Data::Png".toList)
  | beSigned v => exact three _ _ _ (by decide +kernel) (debugBytes_nl v) (by decide +kernel)
  | bmp v => exact (by decide +kernel : '\n' ∉ "Data::Bmp".toList)

/-- Every line of the freeform part starts with a dash or a blank. -/
theorem freeformLines_head (esc : Char → Str) (t : Tag) : ∀ l ∈ freeformLines esc t,
    ∃ c r, l = c :: r ∧ (c = ' ' ∨ c = '-') := by
  intro l hl
  obtain ⟨a, _, hl⟩ := List.mem_flatMap.mp hl
  obtain ⟨i, ds⟩ := a
  cases i with
  | fourcc f => cases hl
  | freeform m n =>
    rcases List.mem_cons.mp hl with rfl | hl
    · exact ⟨'-', _, rfl, .inr rfl⟩
    · obtain ⟨d, _, rfl⟩ := List.mem_map.mp hl
      exact ⟨' ', _, rfl, .inl rfl⟩

theorem freeformLines_nl {esc : Char → Str} (he : ∀ c, '\n' ∉ esc c) {t : Tag} (ht : OneLine t) :
    ∀ l ∈ freeformLines esc t, '\n' ∉ l := by
  intro l hl
  obtain ⟨a, ha, hl⟩ := List.mem_flatMap.mp hl
  have hi := ht.ident a ha
  obtain ⟨i, ds⟩ := a
  cases i with
  | fourcc f => cases hl
  | freeform m n =>
    obtain ⟨hm, hn⟩ := hi m n rfl
    rcases List.mem_cons.mp hl with rfl | hl
    · simp only [DataIdent.display, List.mem_append, not_or]
      exact ⟨⟨⟨⟨by decide, hm⟩, by decide⟩, hn⟩, by decide⟩
    · obtain ⟨d, _, rfl⟩ := List.mem_map.mp hl
      simp only [List.mem_append, not_or]
      exact ⟨by decide, debug_nl he d⟩

theorem display_linesOf {esc : Char → Str} (he : ∀ c, '\n' ∉ esc c) {t : Tag} (ht : OneLine t) :
    linesOf (t.display esc) = displayLines esc t := by
  rw [display_lines]
  apply linesOf_lines
  intro l hl
  rcases List.mem_append.mp hl with hl | hl
  · obtain ⟨f, hf, hl⟩ := List.mem_flatMap.mp hl
    exact Field.lines_nl (namesDistinct_ok (fields_distinct t) f hf) (fields_nl ht f hf) l hl
  · rcases List.mem_append.mp hl with hl | hl
    · exact freeformLines_nl he ht l hl
    · rw [List.mem_singleton] at hl
      subst hl
      simp only [List.mem_append, not_or]
      exact ⟨by decide, ht.ftyp⟩

theorem freeform_notIndented (esc : Char → Str) (t : Tag) (l : Str) :
    NotIndented (freeformLines esc t ++ ["filetype: ".toList ++ l]) := by
  have tail : NotIndented ["filetype: ".toList ++ l] := by
    intro x hx; cases hx
    exact okName_notIndented (n := "filetype: ".toList.take 8) (by decide) _
  have key : ∀ as : List AtomData, NotIndented ((as.flatMap fun a => match a.ident with
    | .freeform _ _ => (a.ident.display ++ ":".toList) :: a.data.map fun d => "    ".toList ++ d.debug esc
    | .fourcc _ => []) ++ ["filetype: ".toList ++ l]) := by
    intro as
    induction as with
    | nil => exact tail
    | cons a as ih =>
      obtain ⟨i, ds⟩ := a
      cases i with
      | fourcc f => exact ih
      | freeform m n => intro x hx; cases hx; rfl
  exact key t.atoms

theorem fields_filetype (t : Tag) : ∀ p ∈ (fields t).map (fun f => (f.name, f.names)),
    p.1 ≠ "filetype".toList ∧ p.2 ≠ "filetype".toList := by
  rw [fields_names t]
  decide +kernel

/-- The values of a field of the text. -/
theorem display_values {esc : Char → Str} (he : ∀ c, '\n' ∉ esc c) {t : Tag} (ht : OneLine t) :
    ∀ f ∈ fields t, f.body ≠ .mark → fieldValues f.name f.names (linesOf (t.display esc)) = f.body.values := by
  intro f hf hm
  rw [display_linesOf he ht, displayLines]
  refine fields_values (fields_distinct t) (freeform_notIndented esc t _) ?_ f hf hm
  intro f hf l hl
  have hok := namesDistinct_ok (fields_distinct t) f hf
  rcases List.mem_append.mp hl with hl | hl
  · obtain ⟨c, r, rfl, hc⟩ := freeformLines_head esc t l hl
    exact quiet_head hok.name hok.names hc r
  · rw [List.mem_singleton] at hl
    subst hl
    have hne : f.name ≠ "filetype".toList ∧ f.names ≠ "filetype".toList :=
      fields_filetype t (f.name, f.names) (List.mem_map.mpr ⟨f, hf, rfl⟩)
    exact (quiet_other hok.name hok.names (by decide) hne.1 hne.2 (' ' :: t.filetype)).1

/-- A flag is shown exactly if it is set. -/
theorem display_mark {esc : Char → Str} (he : ∀ c, '\n' ∉ esc c) {t : Tag} (ht : OneLine t) :
    ∀ f ∈ fields t, (f.body = .mark ∨ f.body = .absent) →
    (f.name ∈ linesOf (t.display esc) ↔ f.body = .mark) := by
  intro f hf hm
  rw [display_linesOf he ht, displayLines]
  refine fields_mark (fields_distinct t) ?_ f hf hm
  intro f hf hl
  have hok := namesDistinct_ok (fields_distinct t) f hf
  rcases List.mem_append.mp hl with hl | hl
  · obtain ⟨c, r, hcr, hc⟩ := freeformLines_head esc t _ hl
    obtain ⟨c', r', hcr', h1, h2⟩ := okName_head hok.name
    rw [hcr'] at hcr
    cases hcr
    rcases hc with rfl | rfl
    · exact h1 rfl
    · exact h2 rfl
  · rw [List.mem_singleton] at hl
    exact okName_colon hok.name (hl ▸ by simp)

theorem optField_values (name : Str) (v : Option Str) : (optField name v).body.values = v.toList := by
  cases v <;> rfl
theorem optField_unmark (name : Str) (v : Option Str) : (optField name v).body ≠ .mark := by
  cases v <;> (intro h; cases h)
theorem listField_values {name names : Str} {vs : List Str} {first : Option Str}
    (h : vs.length ≤ 1 → first = vs.head?) : (listField name names vs first).body.values = vs := by
  by_cases hl : vs.length > 1
  · simp only [listField, if_pos hl]; rfl
  · simp only [listField, if_neg hl]
    rw [h (by omega)]
    match vs with
    | [] => rfl
    | [v] => rfl
    | _ :: _ :: _ => simp at hl
theorem listField_unmark {name names : Str} {vs : List Str} {first : Option Str} :
    (listField name names vs first).body ≠ .mark := by
  by_cases hl : vs.length > 1
  · simp only [listField, if_pos hl]; intro h; cases h
  · simp only [listField, if_neg hl]; exact optField_unmark name first

end Mp4
