import Verif.Spec.Describe
import Verif.Model.Describe
import Verif.Proof.Display
/-
The printed text of an error tells its kind, the atoms it occurred in and what went wrong.
-/
namespace Mp4
open Spec

/-! ### Splitting texts -/

/-- The text does not begin with a character of the class. -/
def Stops (p : Char → Bool) (r : Str) : Prop := ∀ c, r.head? = some c → p c = false

theorem split_eq (p : Char → Bool) : ∀ {a b r s : Str}, (∀ c ∈ a, p c = true) → (∀ c ∈ b, p c = true) → Stops p r → Stops p s →
    a ++ r = b ++ s → a = b ∧ r = s
  | [], [], _, _, _, _, _, _, h => ⟨rfl, h⟩
  | [], c :: b, r, s, _, hb, hr, _, h => by
    have h1 := hr c (by rw [show r = c :: b ++ s from h]; rfl)
    rw [hb c (List.mem_cons_self ..)] at h1
    cases h1
  | c :: a, [], r, s, ha, _, _, hs, h => by
    have h1 := hs c (by rw [← show c :: a ++ r = s from h]; rfl)
    rw [ha c (List.mem_cons_self ..)] at h1
    cases h1
  | c :: a, d :: b, r, s, ha, hb, hr, hs, h => by
    rw [List.cons_append, List.cons_append, List.cons.injEq] at h
    obtain ⟨h1, h2⟩ := split_eq p (fun x hx => ha x (List.mem_cons_of_mem _ hx)) (fun x hx => hb x (List.mem_cons_of_mem _ hx)) hr hs h.2
    exact ⟨by rw [h.1, h1], h2⟩

theorem decimal_digit (n : Nat) : ∀ c ∈ decimal n, c.isDigit = true := by
  intro c hc
  obtain ⟨k, hk, rfl⟩ := decimal_digits n c hc
  have : ∀ k : Fin 10, (Char.ofNat (48 + k.val)).isDigit = true := by decide
  exact this ⟨k, hk⟩

theorem display_length (f : Fourcc) : f.display.length = 4 := rfl

theorem display_inj {f g : Fourcc} (h : f.display = g.display) : f = g := by
  have key : ∀ a b : UInt8, Char.ofNat a.toNat = Char.ofNat b.toNat → a = b := by
    intro a b hab
    have : ∀ x : UInt8, (Char.ofNat x.toNat).toNat = x.toNat := by
      intro x
      have key : ∀ n : Fin 256, (Char.ofNat n.val).toNat = n.val := by decide +kernel
      exact key ⟨x.toNat, x.toNat_lt⟩
    have h2 := congrArg Char.toNat hab
    rw [this, this] at h2
    exact UInt8.toNat_inj.mp h2
  obtain ⟨a, b, c, d⟩ := f
  obtain ⟨a', b', c', d'⟩ := g
  simp only [Fourcc.display, Fourcc.bytes, List.map_cons, List.map_nil, List.cons.injEq, and_true] at h
  rw [key _ _ h.1, key _ _ h.2.1, key _ _ h.2.2.1, key _ _ h.2.2.2]

/-! ### The kind -/

/-- The name of the kind. -/
def ErrKind.name : ErrKind → Str
  | .atomNotFound _ => "AtomNotFound".toList
  | .descriptorNotFound _ => "DescriptorNotFound".toList
  | .io => "Io".toList
  | .noTag => "NoTag".toList
  | .parsing => "Parsing".toList
  | .unknownChannelConfig _ => "UnknownChannelConfig".toList
  | .unknownDataType _ => "UnknownDataType".toList
  | .unknownMediaType _ => "UnknownMediaType".toList
  | .unknownVersion _ => "UnknownVersion".toList
  | .utf8StringDecoding => "Utf8StringDecoding".toList
  | .utf16StringDecoding => "Utf16StringDecoding".toList
  | .unwritableData => "UnwritableData".toList

/-- What follows the name of the kind. -/
def ErrKind.tail (x : Str) : ErrKind → Str
  | .atomNotFound f => "(Fourcc(".toList ++ (f.display ++ "))".toList)
  | .descriptorNotFound t => "(".toList ++ (decimal t.toNat ++ ")".toList)
  | .io => "(".toList ++ (x ++ ")".toList)
  | .noTag => []
  | .parsing => []
  | .unknownChannelConfig n => "(".toList ++ (decimal n.toNat ++ ")".toList)
  | .unknownDataType n => "(".toList ++ (decimal n ++ ")".toList)
  | .unknownMediaType n => "(".toList ++ (decimal n.toNat ++ ")".toList)
  | .unknownVersion n => "(".toList ++ (decimal n.toNat ++ ")".toList)
  | .utf8StringDecoding => "(".toList ++ (x ++ ")".toList)
  | .utf16StringDecoding => "(".toList ++ (x ++ ")".toList)
  | .unwritableData => []

theorem opens {p n o : Str} (h : p = n ++ o) (a b : Str) : p ++ a ++ b = n ++ (o ++ (a ++ b)) := by
  rw [h, List.append_assoc, List.append_assoc]

theorem ErrKind.debug_eq (x : Str) : ∀ k : ErrKind, k.debug x = k.name ++ k.tail x
  | .atomNotFound _ => opens (by dsimp only [ErrKind.name]; decide +kernel) _ _
  | .descriptorNotFound _ => opens (by dsimp only [ErrKind.name]; decide +kernel) _ _
  | .io => opens (by dsimp only [ErrKind.name]; decide +kernel) _ _
  | .noTag => (List.append_nil _).symm
  | .parsing => (List.append_nil _).symm
  | .unknownChannelConfig _ => opens (by dsimp only [ErrKind.name]; decide +kernel) _ _
  | .unknownDataType _ => opens (by dsimp only [ErrKind.name]; decide +kernel) _ _
  | .unknownMediaType _ => opens (by dsimp only [ErrKind.name]; decide +kernel) _ _
  | .unknownVersion _ => opens (by dsimp only [ErrKind.name]; decide +kernel) _ _
  | .utf8StringDecoding => opens (by dsimp only [ErrKind.name]; decide +kernel) _ _
  | .utf16StringDecoding => opens (by dsimp only [ErrKind.name]; decide +kernel) _ _
  | .unwritableData => (List.append_nil _).symm

/-- What follows the kind. -/
def descTail (d : Str) : Str := if d.isEmpty then [] else ": ".toList ++ d

theorem errorText_eq (x : Str) (k : ErrKind) (d : Str) : errorText x k d = k.name ++ (k.tail x ++ descTail d) := by
  unfold errorText descTail
  split
  · rw [ErrKind.debug_eq, List.append_nil]
  · rw [ErrKind.debug_eq, List.append_assoc, List.append_assoc]

theorem name_alnum : ∀ k : ErrKind, ∀ c ∈ k.name, c.isAlphanum = true := by
  intro k
  cases k <;> dsimp only [ErrKind.name] <;> decide +kernel

theorem stops_append {p : Char → Bool} {a : Str} (ha : a ≠ []) (h : Stops p a) (b : Str) : Stops p (a ++ b) := by
  cases a with
  | nil => exact absurd rfl ha
  | cons c a => exact h

theorem stops_append2 {p : Char → Bool} {a : Str} (ha : a ≠ []) (h : Stops p a) (b c : Str) : Stops p (a ++ b ++ c) := by
  cases a with
  | nil => exact absurd rfl ha
  | cons _ a => exact h

theorem open_stops : Stops Char.isAlphanum "(".toList := by
  intro c h
  have h2 : some '(' = some c := h
  cases h2
  decide

theorem desc_stops (d : Str) : Stops Char.isAlphanum (descTail d) := by
  unfold descTail
  intro c h
  split at h
  · cases h
  · have h2 : some ':' = some c := h
    cases h2
    decide

theorem fourcc_stops : Stops Char.isAlphanum "(Fourcc(".toList := by
  intro c h
  have h2 : some '(' = some c := h
  cases h2
  decide

theorem open_ne : "(".toList ≠ [] := by decide +kernel
theorem fourcc_ne : "(Fourcc(".toList ≠ [] := by decide +kernel

theorem tail_stops (x : Str) (d : Str) : ∀ k : ErrKind, Stops Char.isAlphanum (k.tail x ++ descTail d)
  | .atomNotFound _ => stops_append2 fourcc_ne fourcc_stops _ _
  | .descriptorNotFound _ => stops_append2 open_ne open_stops _ _
  | .io => stops_append2 open_ne open_stops _ _
  | .noTag => desc_stops d
  | .parsing => desc_stops d
  | .unknownChannelConfig _ => stops_append2 open_ne open_stops _ _
  | .unknownDataType _ => stops_append2 open_ne open_stops _ _
  | .unknownMediaType _ => stops_append2 open_ne open_stops _ _
  | .unknownVersion _ => stops_append2 open_ne open_stops _ _
  | .utf8StringDecoding => stops_append2 open_ne open_stops _ _
  | .utf16StringDecoding => stops_append2 open_ne open_stops _ _
  | .unwritableData => desc_stops d

theorem close_stops (r : Str) : Stops Char.isDigit (")".toList ++ r) := by
  intro c h
  have h2 : some ')' = some c := h
  cases h2
  decide

theorem number_tail {n m : Nat} {r s : Str} (h : "(".toList ++ (decimal n ++ ")".toList) ++ r = "(".toList ++ (decimal m ++ ")".toList) ++ s) :
    n = m := by
  rw [List.append_assoc, List.append_assoc, List.append_assoc, List.append_assoc] at h
  exact decimal_injective (split_eq _ (decimal_digit n) (decimal_digit m) (close_stops _) (close_stops _) (List.append_cancel_left h)).1

theorem fourcc_tail {f g : Fourcc} {r s : Str} (h : "(Fourcc(".toList ++ (f.display ++ "))".toList) ++ r
    = "(Fourcc(".toList ++ (g.display ++ "))".toList) ++ s) : f = g := by
  rw [List.append_assoc, List.append_assoc, List.append_assoc, List.append_assoc] at h
  exact display_inj (List.append_inj_left (List.append_cancel_left h) rfl)

theorem errorText_kind {x x' : Str} {k k' : ErrKind} {d d' : Str} (h : errorText x k d = errorText x' k' d') : k = k' := by
  rw [errorText_eq, errorText_eq] at h
  obtain ⟨h1, h2⟩ := split_eq _ (name_alnum k) (name_alnum k') (tail_stops x d k) (tail_stops x' d' k') h
  cases k <;> cases k' <;> first
    | rfl
    | exact absurd h1 (by dsimp only [ErrKind.name]; decide +kernel)
    | exact congrArg _ (fourcc_tail h2)
    | exact congrArg _ (UInt8.toNat_inj.mp (number_tail h2))
    | exact congrArg _ (number_tail h2)

theorem descTail_inj {d d' : Str} (h : descTail d = descTail d') : d = d' := by
  unfold descTail at h
  split at h <;> split at h
  · rename_i h1 h2; rw [List.isEmpty_iff.mp h1, List.isEmpty_iff.mp h2]
  · exact absurd h.symm (List.append_ne_nil_of_left_ne_nil (by decide +kernel) _)
  · exact absurd h (List.append_ne_nil_of_left_ne_nil (by decide +kernel) _)
  · exact List.append_cancel_left h

theorem errorText_desc {x : Str} {k k' : ErrKind} {d d' : Str} (h : errorText x k d = errorText x k' d') : d = d' := by
  cases errorText_kind h
  rw [errorText_eq, errorText_eq] at h
  exact descTail_inj (List.append_cancel_left (List.append_cancel_left h))

/-! ### The path -/

/-- The text is not that of an error in an atom. -/
def Innermost (verb t : Str) : Prop := ¬ ("Error ".toList ++ verb ++ " ".toList) <+: t

theorem inAtoms_step (verb : Str) (f : Fourcc) (p : List Fourcc) (t : Str) :
    inAtoms verb (f :: p) t = ("Error ".toList ++ verb ++ " ".toList) ++ (f.display ++ (": ".toList ++ inAtoms verb p t)) := by
  rw [← List.append_assoc f.display, ← List.append_assoc, ← List.append_assoc]
  rfl

theorem inAtoms_inj {verb : Str} : ∀ {p q : List Fourcc} {s t : Str}, Innermost verb s → Innermost verb t →
    inAtoms verb p s = inAtoms verb q t → p = q ∧ s = t
  | [], [], _, _, _, _, h => ⟨rfl, h⟩
  | [], f :: q, s, t, hs, _, h => by
    refine absurd ?_ hs
    rw [show s = inAtoms verb (f :: q) t from h, inAtoms_step]
    exact List.prefix_append ..
  | f :: p, [], s, t, _, ht, h => by
    refine absurd ?_ ht
    rw [← show inAtoms verb (f :: p) s = t from h, inAtoms_step]
    exact List.prefix_append ..
  | f :: p, g :: q, s, t, hs, ht, h => by
    rw [inAtoms_step, inAtoms_step] at h
    have h1 := List.append_cancel_left h
    obtain ⟨h2, h3⟩ := List.append_inj h1 rfl
    obtain ⟨h4, h5⟩ := inAtoms_inj hs ht (List.append_cancel_left h3)
    exact ⟨by rw [display_inj h2, h4], h5⟩

theorem innermost_append {verb a b : Str} (h1 : ¬ a <+: ("Error ".toList ++ verb ++ " ".toList)) (h2 : Innermost verb a) :
    Innermost verb (a ++ b) := fun h =>
  (List.prefix_or_prefix_of_prefix (List.prefix_append a b) h).elim h1 h2

theorem headFault_innermost {k t} (h : HeadFault k t) : Innermost "parsing".toList t := by
  cases h <;> unfold Innermost
  case short f n _ _ =>
    show Innermost _ _
    unfold shortText
    rw [List.append_assoc, List.append_assoc]
    exact innermost_append (by decide +kernel) (by unfold Innermost; decide +kernel)
  all_goals decide +kernel

theorem fullFault_innermost {k t} (h : FullFault k t) : Innermost "parsing".toList t := by
  cases h <;> unfold Innermost <;> decide +kernel

theorem readFault_innermost {p k t} (h : ReadFault p k t) : Innermost "parsing".toList t := by
  cases h
  case head h => exact headFault_innermost h
  case full h => exact fullFault_innermost h
  case mvhd => exact innermost_append (by decide +kernel) (by unfold Innermost; decide +kernel)
  case noData f _ =>
    unfold noDataText
    rw [List.append_assoc]
    exact innermost_append (by decide +kernel) (by unfold Innermost; decide +kernel)
  all_goals (unfold Innermost; decide +kernel)

theorem findFault_innermost {p k t} (h : FindFault p k t) : Innermost "parsing".toList t := by
  cases h
  case head h => exact headFault_innermost h
  case full h => exact fullFault_innermost h
  all_goals (unfold Innermost; decide +kernel)

theorem tableFault_innermost {p k t} (h : TableFault p k t) : Innermost "parsing".toList t := by
  cases h
  case full h => exact fullFault_innermost h
  all_goals (unfold Innermost; decide +kernel)

theorem readFault_text {p k t} (h : ReadFault p k t) (hk : k ≠ .io) : t ≠ [] := by
  cases h
  case head h => cases h <;> first | exact absurd rfl hk | skip
                 unfold shortText; simp
  case full h => cases h <;> exact absurd rfl hk
  case io => exact absurd rfl hk
  case noData => unfold noDataText; simp
  case mvhd => simp
  all_goals decide +kernel

theorem findFault_text {p k t} (h : FindFault p k t) (hk : k ≠ .io) : t ≠ [] := by
  cases h
  case head h => cases h <;> first | exact absurd rfl hk | skip
                 unfold shortText; simp
  case full h => cases h <;> exact absurd rfl hk
  case io => exact absurd rfl hk
  all_goals decide +kernel

theorem tableFault_text {p k t} (h : TableFault p k t) (hk : k ≠ .io) : t ≠ [] := by
  cases h
  case full h => cases h <;> exact absurd rfl hk
  case io => exact absurd rfl hk
  all_goals decide +kernel

theorem whileParsing_ne {p : List Fourcc} {t : Str} (h : t ≠ []) : whileParsing p t ≠ [] := by
  cases p with
  | nil => exact h
  | cons f p => unfold whileParsing inAtoms; simp

end Mp4
