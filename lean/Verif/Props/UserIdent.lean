import Verif.Model.UserIdent
import Verif.Proof.TagMap
import Verif.Proof.TagOps
import Verif.Props.TagMap
import Verif.Props.Dump
/-
C97: identifier types of the caller.

If the comparison of the type says "equal" exactly for the identifier it converts into, the type behaves like those of the library.
Otherwise: an identifier is entered twice exactly if a value of the type does not equal what it converts into, and every operation
leaves the entries alone that the value does not equal.
-/
namespace Mp4.Props
open Mp4 Spec

/-- The value equals exactly the identifier it converts into. -/
def Lawful (u : UserIdent) : Prop := ∀ j, u.eq j = true ↔ j = u.into

/-- The operation with the identifier of the library in place of the one of the caller. -/
def libOp : UserOp → TagOp
  | .set u d => .set (.data u.into) d
  | .setAll u ds => .setAll (.data u.into) ds
  | .add u d => .add (.data u.into) d
  | .addAll u ds => .addAll (.data u.into) ds
  | .remove u => .remove (.data u.into)
  | .retainOf u p => .retainOf (.data u.into) p
  | .take u => .take (.data u.into)
  | .dataMutOf u f => .dataMutOf (.data u.into) f
  | .lib o => o

/-- The identifier of the caller in an operation. -/
def userOf : UserOp → Option UserIdent
  | .set u _ | .setAll u _ | .add u _ | .addAll u _ | .remove u | .retainOf u _ | .take u | .dataMutOf u _ => some u
  | .lib _ => none

/-- The identifier of the caller under which an operation may create an entry. -/
def creates : UserOp → Option UserIdent
  | .set u _ | .setAll u _ | .add u _ | .addAll u _ => some u
  | _ => none

theorem Lawful.eq {u : UserIdent} (h : Lawful u) : u.eq = (Ident.data u.into).matches := by
  funext j
  rw [Ident.matches_eq, Bool.eq_iff_iff, decide_eq_true_iff]
  exact h j

theorem Lawful.user {u : UserIdent} (h : Lawful u) : u = (Ident.data u.into).user := by
  cases u
  simp only [Ident.user, Ident.toData, UserIdent.mk.injEq, and_true]
  exact h.eq

theorem modFirstU_user (i : Ident) (f) (l : List AtomData) : modFirstU i.user f l = modFirst i f l := by
  induction l with
  | nil => rfl
  | cons a l ih => simp only [modFirstU, modFirst, ih]; rfl

theorem takeLoopU_user (i : Ident) (n : Nat) (l : List AtomData) (k : Nat) :
    takeLoopU i.user n l k = takeLoop i n l k := by
  induction n generalizing k with
  | zero => rfl
  | succ n ih => simp only [takeLoopU, takeLoop, ih]; rfl

theorem ops_user (t : Tag) (i : Ident) :
    t.dataOfU i.user = t.dataOf i ∧ t.takeDataOfU i.user = t.takeDataOf i ∧ t.removeDataOfU i.user = t.removeDataOf i ∧
      (∀ p, t.retainDataOfU i.user p = t.retainDataOf i p) ∧ (∀ f, t.dataMutOfU i.user f = t.dataMutOf i f) ∧
      (∀ d, t.setDataU i.user d = t.setData i d) ∧ (∀ ds, t.setAllDataU i.user ds = t.setAllData i ds) ∧
      (∀ d, t.addDataU i.user d = t.addData i d) ∧ ∀ ds, t.addAllDataU i.user ds = t.addAllData i ds := by
  refine ⟨rfl, ?_, rfl, fun p => rfl, fun f => ?_, fun d => ?_, fun ds => ?_, fun d => ?_, fun ds => ?_⟩
  · simp only [Tag.takeDataOfU, Tag.takeDataOf, takeLoopU_user]
  all_goals
    simp only [Tag.dataMutOfU, Tag.dataMutOf, Tag.setDataU, Tag.setData, Tag.setAllDataU, Tag.setAllData, Tag.addDataU,
      Tag.addData, Tag.addAllDataU, Tag.addAllData, modFirstU_user]
    rfl

theorem modFirstU_spec (u : UserIdent) (f) (l : List AtomData) :
    (∃ l1 a l2, l = l1 ++ a :: l2 ∧ (∀ b ∈ l1, u.eq b.ident = false) ∧ u.eq a.ident = true ∧
        modFirstU u f l = some (l1 ++ f a :: l2)) ∨
      ((∀ b ∈ l, u.eq b.ident = false) ∧ modFirstU u f l = none) := by
  induction l with
  | nil => exact .inr ⟨by simp, rfl⟩
  | cons b l ih =>
    by_cases hb : u.eq b.ident = true
    · exact .inl ⟨[], b, l, rfl, by simp, hb, by simp [modFirstU, hb]⟩
    · rw [Bool.not_eq_true] at hb
      rcases ih with ⟨l1, a, l2, e, h1, h2, h3⟩ | ⟨h1, h2⟩
      · refine .inl ⟨b :: l1, a, l2, by rw [e]; rfl, ?_, h2, by simp [modFirstU, hb, h3]⟩
        intro c hc
        rcases List.mem_cons.mp hc with rfl | hc
        · exact hb
        · exact h1 c hc
      · refine .inr ⟨?_, by simp [modFirstU, hb, h2]⟩
        intro c hc
        rcases List.mem_cons.mp hc with rfl | hc
        · exact hb
        · exact h1 c hc

/-- Either no entry equals the value, or the entries split at the first one that does. -/
theorem splitU (u : UserIdent) (l : List AtomData) :
    (∃ l1 a l2, l = l1 ++ a :: l2 ∧ (∀ b ∈ l1, u.eq b.ident = false) ∧ u.eq a.ident = true) ∨
      ∀ b ∈ l, u.eq b.ident = false := by
  rcases modFirstU_spec u id l with ⟨l1, a, l2, h1, h2, h3, _⟩ | ⟨h, _⟩
  · exact .inl ⟨l1, a, l2, h1, h2, h3⟩
  · exact .inr h

theorem takeLoopU_none (u : UserIdent) (n : Nat) (l : List AtomData) (k : Nat) (h : ∀ b ∈ l, u.eq b.ident = false) :
    takeLoopU u n l k = ([], l) := by
  induction n generalizing k with
  | zero => rfl
  | succ n ih =>
    simp only [takeLoopU]
    cases hk : l[k]? with
    | none => rfl
    | some a => simp [h a (List.mem_of_getElem? hk), ih]

theorem takeLoopU_some (u : UserIdent) (l1 l2 : List AtomData) (a : AtomData) (h : ∀ b ∈ l1, u.eq b.ident = false)
    (ha : u.eq a.ident = true) (n k : Nat) (hk : k ≤ l1.length) (hn : l1.length < n + k) :
    takeLoopU u n (l1 ++ a :: l2) k = (a.data, l1 ++ l2) := by
  induction n generalizing k with
  | zero => omega
  | succ n ih =>
    simp only [takeLoopU]
    by_cases he : k = l1.length
    · subst he
      simp [ha, List.eraseIdx_append_of_length_le]
    · have hlt : k < l1.length := by omega
      rw [List.getElem?_append_left hlt, List.getElem?_eq_getElem hlt]
      simp only [h _ (List.getElem_mem hlt), Bool.false_eq_true, if_false]
      exact ih (k + 1) (by omega) (by omega)

/-- What an operation does with the first entry that equals its identifier. -/
def onEntry : UserOp → AtomData → List AtomData
  | .set _ d, a => [⟨a.ident, [d]⟩]
  | .setAll _ ds, a => [⟨a.ident, ds⟩]
  | .add _ d, a => [⟨a.ident, a.data ++ [d]⟩]
  | .addAll _ ds, a => [⟨a.ident, a.data ++ ds⟩]
  | .retainOf _ p, a => if a.data.filter p = [] then [] else [⟨a.ident, a.data.filter p⟩]
  | .dataMutOf _ f, a => [⟨a.ident, a.data.mapIdx f⟩]
  | .take _, _ | .remove _, _ => []
  | .lib _, a => [a]

/-- What an operation appends if no entry equals its identifier. -/
def onNone : UserOp → List AtomData
  | .set u d | .add u d => [⟨u.into, [d]⟩]
  | .setAll u ds | .addAll u ds => [⟨u.into, ds⟩]
  | _ => []

theorem findIdx_split (u : UserIdent) (l1 l2 : List AtomData) (a : AtomData) (h : ∀ b ∈ l1, u.eq b.ident = false)
    (ha : u.eq a.ident = true) : (l1 ++ a :: l2).findIdx? (fun a => u.eq a.ident) = some l1.length := by
  rw [List.findIdx?_append, List.findIdx?_eq_none_iff.mpr h]
  simp [List.findIdx?_cons, ha]

theorem modify_splitU (f : AtomData → AtomData) (l1 l2 : List AtomData) (a : AtomData) :
    (l1 ++ a :: l2).modify l1.length f = l1 ++ f a :: l2 := by
  induction l1 with
  | nil => rfl
  | cons b l ih => simpa using ih

/-- **C97.** Every operation but `remove_data_of` acts on the first entry that equals the identifier, or, if there is none, appends an
entry; everything else stays as it is. `remove_data_of` removes all entries that equal it. -/
theorem C97_effect (t : Tag) (op : UserOp) (u : UserIdent) (hu : userOf op = some u) :
    (op = .remove u ∧ (op.run t).atoms = t.atoms.filter fun a => !u.eq a.ident) ∨
    (op ≠ .remove u ∧ ∃ l1 a l2, t.atoms = l1 ++ a :: l2 ∧ (∀ b ∈ l1, u.eq b.ident = false) ∧ u.eq a.ident = true ∧
      (op.run t).atoms = l1 ++ onEntry op a ++ l2) ∨
    (op ≠ .remove u ∧ (∀ b ∈ t.atoms, u.eq b.ident = false) ∧ (op.run t).atoms = t.atoms ++ onNone op) := by
  cases op with
  | lib o => simp [userOf] at hu
  | remove v =>
    simp only [userOf, Option.some.injEq] at hu; subst hu
    exact .inl ⟨rfl, rfl⟩
  | take v =>
    simp only [userOf, Option.some.injEq] at hu; subst hu
    refine .inr ?_
    rcases splitU v t.atoms with ⟨l1, a, l2, e, h1, h2⟩ | h
    · refine .inl ⟨by simp, l1, a, l2, e, h1, h2, ?_⟩
      simp only [UserOp.run, Tag.takeDataOfU, e, onEntry, List.append_nil]
      rw [takeLoopU_some v l1 l2 a h1 h2 _ 0 (by omega) (by simp; omega)]
    · refine .inr ⟨by simp, h, ?_⟩
      simp only [UserOp.run, Tag.takeDataOfU, takeLoopU_none v _ _ _ h, onNone, List.append_nil]
  | retainOf v p =>
    simp only [userOf, Option.some.injEq] at hu; subst hu
    refine .inr ?_
    rcases splitU v t.atoms with ⟨l1, a, l2, e, h1, h2⟩ | h
    · refine .inl ⟨by simp, l1, a, l2, e, h1, h2, ?_⟩
      simp only [UserOp.run, Tag.retainDataOfU, e, findIdx_split v l1 l2 a h1 h2, onEntry]
      rw [modify_splitU]
      simp only [Nat.sub_self, List.getElem?_append_right (Nat.le_refl _), List.getElem?_cons_zero,
        List.isEmpty_iff]
      split <;> simp_all [List.eraseIdx_append_of_length_le]
    · refine .inr ⟨by simp, h, ?_⟩
      simp only [UserOp.run, Tag.retainDataOfU, List.findIdx?_eq_none_iff.mpr h, onNone, List.append_nil]
  | set v d | setAll v d | add v d | addAll v d | dataMutOf v d =>
    simp only [userOf, Option.some.injEq] at hu; subst hu
    refine .inr ?_
    simp only [UserOp.run, Tag.setDataU, Tag.setAllDataU, Tag.addDataU, Tag.addAllDataU, Tag.dataMutOfU, onEntry, onNone]
    rcases modFirstU_spec v _ t.atoms with ⟨l1, a, l2, e, h1, h2, h3⟩ | ⟨h, h3⟩
    · refine .inl ⟨by simp, l1, a, l2, e, h1, h2, ?_⟩
      rw [h3]; simp
    · refine .inr ⟨by simp, h, ?_⟩
      rw [h3]; try simp

/-- **C97.** A type that equals exactly the identifier it converts into behaves, in any history, like the types of the library. -/
theorem C97_lawful (ops : List UserOp) (t : Tag) (h : ∀ op ∈ ops, ∀ u, userOf op = some u → Lawful u) :
    ops.foldl UserOp.run t = runOps (ops.map libOp) t ∧
      ∀ u, Lawful u → (ops.foldl UserOp.run t).dataOfU u = (ops.foldl UserOp.run t).dataOf (.data u.into) ∧
        ((ops.foldl UserOp.run t).takeDataOfU u).1 = ((ops.foldl UserOp.run t).takeDataOf (.data u.into)).1 := by
  have key : ∀ (s : Tag) (op : UserOp), (∀ u, userOf op = some u → Lawful u) → op.run s = (libOp op).run s := by
    intro s op hop
    cases op with
    | lib o => rfl
    | set u _ | setAll u _ | add u _ | addAll u _ | remove u | retainOf u _ | take u | dataMutOf u _ =>
      have hl := (hop u rfl).user
      obtain ⟨_, h2, h3, h4, h5, h6, h7, h8, h9⟩ := ops_user s (.data u.into)
      simp only [UserOp.run, libOp, TagOp.run]
      rw [hl]
      simp only [Ident.user, Ident.toData] at *
      first | exact h6 _ | exact h7 _ | exact h8 _ | exact h9 _ | exact h3 | exact h4 _ | exact congrArg Prod.snd h2 | exact h5 _
  refine ⟨?_, fun u hl => ?_⟩
  · induction ops generalizing t with
    | nil => rfl
    | cons op ops ih =>
      simp only [List.foldl_cons, List.map_cons, runOps]
      rw [key t op (h op (List.mem_cons_self ..)), ih _ fun o ho => h o (List.mem_cons_of_mem _ ho)]
      rfl
  · generalize ops.foldl UserOp.run t = s
    obtain ⟨h1, h2, _⟩ := ops_user s (.data u.into)
    rw [← hl.user] at h1 h2
    exact ⟨h1, congrArg Prod.fst h2⟩

/-- **C97.** The three types of the library are such types. -/
theorem C97_library (i : Ident) : Lawful i.user := by
  intro j
  simp only [Ident.user, Ident.matches_eq, decide_eq_true_iff]

theorem idents_onEntry (op : UserOp) (a : AtomData) :
    (onEntry op a).map AtomData.ident = [a.ident] ∨ (onEntry op a).map AtomData.ident = [] := by
  cases op <;> simp only [onEntry] <;> (try split) <;> simp

/-- **C97.** An operation keeps the identifiers of all tags distinct exactly if it does not create entries or its identifier equals
what it converts into. -/
theorem C97_unique_iff (op : UserOp) :
    (∀ t : Tag, t.NoDup → (op.run t).NoDup) ↔ ∀ u, creates op = some u → u.eq u.into = true := by
  constructor
  · intro h u hu
    cases he : u.eq u.into with
    | true => rfl
    | false =>
      have hn := h { atoms := [⟨u.into, []⟩] } (by simp [Tag.NoDup])
      have hus : userOf op = some u := by cases op <;> simp_all [creates, userOf]
      have hnone : ∃ ds, onNone op = [⟨u.into, ds⟩] := by
        cases op <;> simp_all [creates, onNone]
      obtain ⟨ds, hnone⟩ := hnone
      rcases C97_effect { atoms := [⟨u.into, []⟩] } op u hus with ⟨hr, _⟩ | ⟨_, l1, a, l2, e, _, ha, _⟩ | ⟨_, _, hr⟩
      · subst hr; simp [creates] at hu
      · have : a ∈ [(⟨u.into, []⟩ : AtomData)] := by rw [show [(⟨u.into, []⟩ : AtomData)] = l1 ++ a :: l2 from e]; simp
        simp only [List.mem_singleton] at this
        subst this
        rw [he] at ha; cases ha
      · simp only [Tag.NoDup, hr, hnone] at hn
        simp at hn
  · intro h t hn
    cases hu : userOf op with
    | none =>
      cases op with
      | lib o => exact run_noDup o t hn
      | _ => simp [userOf] at hu
    | some u =>
      simp only [Tag.NoDup] at hn ⊢
      rcases C97_effect t op u hu with ⟨_, hr⟩ | ⟨_, l1, a, l2, e, _, ha, hr⟩ | ⟨_, hno, hr⟩
      · rw [hr]; exact hn.sublist (List.filter_sublist.map _)
      · rw [hr]
        rw [e] at hn
        simp only [List.map_append, List.map_cons] at hn ⊢
        rcases idents_onEntry op a with hi | hi <;> rw [hi]
        · simpa using hn
        · refine hn.sublist ?_
          simp
      · rw [hr, List.map_append]
        have hc : onNone op = [] ∨ creates op = some u ∧ ∃ ds, onNone op = [⟨u.into, ds⟩] := by
          cases op <;> simp_all [creates, onNone, userOf]
        rcases hc with hc | ⟨hc, ds, he⟩
        · simpa [hc] using hn
        · rw [he, List.nodup_append]
          refine ⟨hn, by simp, ?_⟩
          intro x hx y hy
          simp only [List.map_cons, List.map_nil, List.mem_singleton] at hy
          subst hy
          obtain ⟨b, hb, rfl⟩ := List.mem_map.mp hx
          intro heq
          have h1 := hno b hb
          rw [heq, h u hc] at h1
          cases h1

/-- **C97.** Any history of operations whose identifiers equal what they convert into keeps the identifiers distinct. -/
theorem C97_unique (start : Tag) (ops : List UserOp)
    (hs : start = {} ∨ start.NoDup ∨ ∃ e F pos, readTag e F pos = .ok start)
    (h : ∀ op ∈ ops, ∀ u, creates op = some u → u.eq u.into = true) : (ops.foldl UserOp.run start).NoDup := by
  have hn : start.NoDup := by
    rcases hs with rfl | hs | ⟨e, F, pos, hs⟩
    · simp [Tag.NoDup]
    · exact hs
    · exact readTag_noDup hs
  clear hs
  induction ops generalizing start with
  | nil => exact hn
  | cons op ops ih =>
    exact ih _ (fun o ho => h o (List.mem_cons_of_mem _ ho)) ((C97_unique_iff op).mpr (h op (List.mem_cons_self ..)) start hn)

theorem filter_none {l : List AtomData} {u : UserIdent} (h : ∀ b ∈ l, u.eq b.ident = false) :
    (l.filter fun a => u.eq a.ident) = [] := by
  rw [List.filter_eq_nil_iff]
  intro b hb
  simp [h b hb]

/-- **C97.** Whatever the identifier, the entries it does not equal keep their place and their values; at most an entry for the
identifier it converts into is appended. -/
theorem C97_frame (t : Tag) (op : UserOp) (u : UserIdent) (hu : userOf op = some u) :
    ((op.run t).atoms.filter fun a => !u.eq a.ident) = (t.atoms.filter fun a => !u.eq a.ident) ∨
      (creates op = some u ∧ u.eq u.into = false ∧ (∀ b ∈ t.atoms, u.eq b.ident = false) ∧
        ∃ ds, (op.run t).atoms = t.atoms ++ [⟨u.into, ds⟩]) := by
  rcases C97_effect t op u hu with ⟨_, hr⟩ | ⟨_, l1, a, l2, e, _, ha, hr⟩ | ⟨_, hno, hr⟩
  · left; rw [hr, List.filter_filter]; simp
  · left
    rw [hr, e]
    have : ∀ b ∈ onEntry op a, u.eq b.ident = true := by
      intro b hb
      have hm : b.ident ∈ (onEntry op a).map AtomData.ident := List.mem_map_of_mem hb
      rcases idents_onEntry op a with hi | hi <;> rw [hi] at hm
      · simp only [List.mem_singleton] at hm; rw [hm]; exact ha
      · cases hm
    have h0 : ((onEntry op a).filter fun a => !u.eq a.ident) = [] := by
      rw [List.filter_eq_nil_iff]; intro b hb; simp [this b hb]
    simp [List.filter_append, h0, ha]
  · have hc : onNone op = [] ∨ creates op = some u ∧ ∃ ds, onNone op = [⟨u.into, ds⟩] := by
      cases op <;> simp_all [creates, onNone, userOf]
    rcases hc with hc | ⟨hc, ds, he⟩
    · left; rw [hr, hc, List.append_nil]
    · cases hi : u.eq u.into with
      | true => left; rw [hr, he, List.filter_append]; simp [hi]
      | false => exact .inr ⟨hc, rfl, hno, ds, by rw [hr, he]⟩

theorem dataOfU_eq (t : Tag) (u : UserIdent) :
    t.dataOfU u = ((t.atoms.filter fun a => u.eq a.ident).head?.map AtomData.data).getD [] := by
  simp only [Tag.dataOfU, List.head?_filter]
  cases t.atoms.find? fun a => u.eq a.ident <;> rfl

/-- **C97.** What is stored is found again exactly if an entry equalled the identifier before or the identifier equals what it converts
into. -/
theorem C97_get_set (t : Tag) (u : UserIdent) (d : Data) :
    (t.setDataU u d).dataOfU u = [d] ↔ (∃ a ∈ t.atoms, u.eq a.ident = true) ∨ u.eq u.into = true := by
  rw [dataOfU_eq]
  rcases C97_effect t (.set u d) u rfl with ⟨hr, _⟩ | ⟨_, l1, a, l2, e, h1, ha, hr⟩ | ⟨_, hno, hr⟩
  · cases hr
  · simp only [UserOp.run, onEntry] at hr
    rw [hr, e]
    simp only [List.filter_append, filter_none h1, List.filter_cons, List.filter_nil, ha, if_true, List.nil_append]
    exact ⟨fun _ => .inl ⟨a, by simp, ha⟩, fun _ => rfl⟩
  · simp only [UserOp.run, onNone] at hr
    rw [hr]
    have : ¬ ∃ a ∈ t.atoms, u.eq a.ident = true := by
      rintro ⟨a, hm, h⟩; rw [hno a hm] at h; cases h
    simp only [this, false_or, List.filter_append, filter_none hno, List.nil_append, List.filter_cons, List.filter_nil]
    cases u.eq u.into <;> simp

/-- **C97.** After `remove_data_of` nothing is found; `take_data_of` returns what `data_of` finds and uncovers the values of the next entry
that equals the identifier. -/
theorem C97_take_remove (t : Tag) (u : UserIdent) :
    (t.removeDataOfU u).dataOfU u = [] ∧ (t.takeDataOfU u).1 = t.dataOfU u ∧
      (t.takeDataOfU u).2.dataOfU u =
        (((t.atoms.filter fun a => u.eq a.ident).drop 1).head?.map AtomData.data).getD [] := by
  refine ⟨?_, ?_, ?_⟩
  · rw [dataOfU_eq]
    rw [filter_none (u := u) fun b hb => ?_]
    · rfl
    · simpa using (List.mem_filter.mp hb).2
  · rw [dataOfU_eq]
    rcases splitU u t.atoms with ⟨l1, a, l2, e, h1, h2⟩ | h
    · simp only [Tag.takeDataOfU, e]
      rw [takeLoopU_some u l1 l2 a h1 h2 _ 0 (by omega) (by simp; omega)]
      simp [List.filter_append, filter_none h1, h2]
    · simp only [Tag.takeDataOfU, takeLoopU_none u _ _ _ h, filter_none h]
      rfl
  · rw [dataOfU_eq]
    rcases splitU u t.atoms with ⟨l1, a, l2, e, h1, h2⟩ | h
    · simp only [Tag.takeDataOfU, e]
      rw [takeLoopU_some u l1 l2 a h1 h2 _ 0 (by omega) (by simp; omega)]
      simp [List.filter_append, filter_none h1, h2]
    · simp only [Tag.takeDataOfU, takeLoopU_none u _ _ _ h, filter_none h]
      rfl

theorem valL_mapK (g : DataIdent → List Data) (ks : List DataIdent) (i : DataIdent) :
    valL (ks.map fun k => (⟨k, g k⟩ : AtomData)) i = if i ∈ ks then g i else [] := by
  induction ks with
  | nil => rfl
  | cons k ks ih =>
    simp only [List.map_cons, valL, ih, List.mem_cons]
    by_cases hk : k = i
    · simp [hk]
    · simp [hk, Ne.symm hk]

/-- **C97.** Dumping and reading merges the entries with the same identifier: at the place of the first, with all their values in
order. -/
theorem C97_dump (e : Env) (t : Tag) (h : ∀ a ∈ t.atoms, Storable a ∧ Visible a) (hF : Fit e (dumpTag e t).1) :
    ∃ t', readTag e (dumpTag e t).1 0 = .ok t' ∧ t'.atoms.map AtomData.ident = firsts (t.atoms.map AtomData.ident) ∧
      ∀ i, t'.dataOf (.data i) = (t.atoms.filter (·.ident = i)).flatMap AtomData.data := by
  have hdump := C28_dump e t (fun a ha => (h a ha).1)
  rw [hdump] at hF ⊢
  have hc := dumpFile_content (ilst_content (fun a ha => ⟨(h a ha).1.2, (h a ha).2⟩))
  have := read_spec (X := []) (Y := []) (e := e) (by simpa using hF) (dumpFile_WF t.atoms) hc
  refine ⟨_, by simpa using this, ?_, fun i => ?_⟩
  · simp only [group, List.map_map]
    conv => rhs; rw [← List.map_id (firsts (t.atoms.map AtomData.ident))]
    rfl
  · rw [Tag.dataOf_eq]
    simp only [Ident.toData, group]
    rw [valL_mapK, List.filter_map, List.flatMap_map]
    simp only [mem_firsts, List.map_map]
    split
    · rfl
    · rename_i hi
      rw [List.filter_eq_nil_iff.mpr]
      · rfl
      · intro a ha hc
        exact hi (List.mem_map.mpr ⟨a, ha, by simpa using hc⟩)

/-- A type that compares case-insensitively, as a caller might write it, with a value that does. -/
def lowerC (b : UInt8) : UInt8 := if 65 ≤ b.toNat ∧ b.toNat ≤ 90 then b + 32 else b

/-- Equals every four character code that differs from `f` only in case, and converts into `f`. -/
def anyCase (f : Fourcc) : UserIdent :=
  ⟨fun j => match j with
    | .fourcc g => f.bytes.map lowerC == g.bytes.map lowerC
    | .freeform _ _ => false, .fourcc f⟩

/-- Equals nothing. -/
def nothing (f : Fourcc) : UserIdent := ⟨fun _ => false, .fourcc f⟩

/-- **C97.** "Every identifier occurs at most once" (C01) does not hold for all implementations of the trait: setting a value twice through
an identifier that equals nothing enters it twice, and reading it returns the first. -/
theorem C97_refuted :
    ¬ ∀ (ops : List UserOp), (ops.foldl UserOp.run {}).NoDup := by
  intro h
  have := h [.set (nothing TITLE) (.utf8 []), .set (nothing TITLE) (.utf8 [])]
  revert this
  decide

example : ((({} : Tag).setDataU (nothing TITLE) (.utf8 "a".toList)).setDataU (nothing TITLE) (.utf8 "b".toList)).dataOf
    (.fourcc TITLE) = [.utf8 "a".toList] := by decide
example : readTag env0 (dumpTag env0 ((({} : Tag).setDataU (nothing TITLE) (.utf8 ['a'])).setDataU (nothing TITLE) (.utf8 ['b']))).1 0
    = .ok { ftyp := dumpFtyp, info := {}, atoms := [⟨.fourcc TITLE, [.utf8 ['a'], .utf8 ['b']]⟩] } := by decide +kernel
example : ¬ Lawful (anyCase TITLE) := by
  intro h
  have := (h (.fourcc ⟨0xa9, 'N'.toNat.toUInt8, 'A'.toNat.toUInt8, 'M'.toNat.toUInt8⟩)).mp (by decide)
  revert this; decide
example : (anyCase TITLE).eq (anyCase TITLE).into = true := by decide
example : ((({} : Tag).setData (.fourcc ⟨0xa9, 78, 65, 77⟩) (.utf8 "a".toList)).setDataU (anyCase TITLE) (.utf8 "b".toList)).atoms =
    [⟨.fourcc ⟨0xa9, 78, 65, 77⟩, [.utf8 "b".toList]⟩] := by decide
example : let t := (({} : Tag).setData (.fourcc ⟨0xa9, 78, 65, 77⟩) (.utf8 "a".toList)).setData (.fourcc TITLE) (.utf8 "b".toList)
    (t.takeDataOfU (anyCase TITLE)).1 = [.utf8 "a".toList] ∧ (t.takeDataOfU (anyCase TITLE)).2.dataOfU (anyCase TITLE) =
      [.utf8 "b".toList] := by decide
example : Lawful (Ident.freeform ISRC).user := C97_library _

end Mp4.Props
