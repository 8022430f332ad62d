import Verif.Spec.Update
import Verif.Proof.ReadSpec
import Verif.Proof.Emit
/-
The search phase on a well-formed file: the bounds found, as functions of the tree and its position.
-/
namespace Mp4
open Spec

/-- The last child for which `f` is defined. -/
def lastAt {κ β} (box : κ → Box) (f : Nat → κ → Option β) : Nat → List κ → Option β
  | _, [] => none
  | p, k :: ks => (lastAt box f (p + (box k).ser.length) ks).or (f p k)

theorem lastAt_append {κ β} (box : κ → Box) (f : Nat → κ → Option β) (p : Nat) (A B : List κ) :
    lastAt box f p (A ++ B) = (lastAt box f (p + (serL box A).length) B).or (lastAt box f p A) := by
  induction A generalizing p with
  | nil => simp [lastAt, serL_nil]
  | cons k ks ih =>
    rw [List.cons_append, lastAt, ih, lastAt, serL_cons, List.length_append, Nat.add_assoc, Option.or_assoc]

theorem lastAt_none {κ β} {box : κ → Box} {f : Nat → κ → Option β} {ks : List κ} (h : ∀ k ∈ ks, ∀ q, f q k = none) (p : Nat) :
    lastAt box f p ks = none := by
  induction ks generalizing p with
  | nil => rfl
  | cons k ks ih => rw [lastAt, ih (fun k hk => h k (by simp [hk])), h k (by simp)]; rfl

theorem lastAt_split {κ β} {box : κ → Box} {f : Nat → κ → Option β} {A B : List κ} {k : κ} {b : β} {p : Nat}
    (hk : f (p + (serL box A).length) k = some b) (hB : ∀ k ∈ B, ∀ q, f q k = none) :
    lastAt box f p (A ++ k :: B) = some b := by
  rw [lastAt_append, lastAt, lastAt_none hB, hk]; rfl

theorem foldAt_congr {κ σ} {box : κ → Box} {f g : σ → Nat → κ → σ} (ks : List κ) :
    (∀ k ∈ ks, ∀ s p, f s p k = g s p k) → ∀ s p, foldAt box f s p ks = foldAt box g s p ks := by
  induction ks with
  | nil => intros; rfl
  | cons k ks ih =>
    intro h s p
    rw [foldAt, foldAt, h k (by simp), ih (fun k hk => h k (by simp [hk]))]

theorem foldAt_last {κ β} (box : κ → Box) (f : Nat → κ → Option β) (s : Option β) (p : Nat) (ks : List κ) :
    foldAt box (fun s q k => (f q k).or s) s p ks = (lastAt box f p ks).or s := by
  induction ks generalizing s p with
  | nil => rfl
  | cons k ks ih => rw [foldAt, ih, lastAt, Option.or_assoc]

/-! ### Leaves -/

theorem findLeaf_at {e F q} {b : Box} (hF : Fit e F) (hat : At F q b.ser) :
    findLeaf b.size e F (q + b.headLen) = .ok (⟨q, b.size⟩, q + b.ser.length) := by
  have hle := hat.le
  have h1 := hF.pos
  have h2 := hF.len
  have hsl := b.ser_length
  have he : (⟨q, b.size⟩ : AtomBounds).pos + (⟨q, b.size⟩ : AtomBounds).size.len = q + b.ser.length := by
    rw [hsl]; rfl
  rw [findLeaf, P.bind_ok (findBounds_box b e), P.bind_ok (seekToEnd_ok _ (by omega) he (by omega) (by omega))]; rfl

/-- The bounds of an atom `fc`. -/
def leafAt (fc : Fourcc) (q : Nat) (b : Box) : Option AtomBounds := if b.fc = fc then some ⟨q, b.size⟩ else none

def stblB (q : Nat) (b : Box) (s : Stbl) : StblBounds :=
  ⟨⟨q, b.size⟩, lastAt id (leafAt SAMPLE_TABLE_CHUNK_OFFSET) (q + b.headLen) s,
    lastAt id (leafAt SAMPLE_TABLE_CHUNK_OFFSET_64) (q + b.headLen) s⟩

theorem stbl_fold (bd : AtomBounds) (x y : Option AtomBounds) (p : Nat) (s : List Box) :
    foldAt id (fun (s : StblBounds) q b =>
      if b.fc = SAMPLE_TABLE_CHUNK_OFFSET then { s with stco := some ⟨q, b.size⟩ }
      else if b.fc = SAMPLE_TABLE_CHUNK_OFFSET_64 then { s with co64 := some ⟨q, b.size⟩ } else s) ⟨bd, x, y⟩ p s
    = ⟨bd, (lastAt id (leafAt SAMPLE_TABLE_CHUNK_OFFSET) p s).or x,
        (lastAt id (leafAt SAMPLE_TABLE_CHUNK_OFFSET_64) p s).or y⟩ := by
  induction s generalizing x y p with
  | nil => rfl
  | cons b s ih =>
    rw [foldAt, lastAt, lastAt]
    by_cases h1 : b.fc = SAMPLE_TABLE_CHUNK_OFFSET
    · have h2 : b.fc ≠ SAMPLE_TABLE_CHUNK_OFFSET_64 := by rw [h1]; decide
      simp only [leafAt, if_pos h1, if_neg h2, Option.or_assoc, Option.some_or, Option.none_or]
      rw [ih]
    · by_cases h2 : b.fc = SAMPLE_TABLE_CHUNK_OFFSET_64
      · simp only [leafAt, if_pos h2, if_neg h1, Option.or_assoc, Option.some_or, Option.none_or]
        rw [ih]
      · simp only [leafAt, if_neg h2, if_neg h1, Option.or_assoc, Option.none_or]
        rw [ih]

theorem findStbl_at {e F q} {b : Box} {s : Stbl} (hF : Fit e F) (hb : b.body = s.ser) (hw : s.WF) (hat : At F q b.ser) :
    findStbl b.size e F (q + b.headLen) = .ok (stblB q b s, q + b.ser.length) := by
  have hbody := Box.body_at hat
  rw [hb] at hbody
  rw [findStbl, P.bind_ok (findBounds_box b e)]
  have := loop_kids (box := id) (ks := s) (parsed := 0) (limit := b.size.contentLen)
    (handle := fun (s : StblBounds) h =>
      if h.fourcc = SAMPLE_TABLE_CHUNK_OFFSET then do
        let a ← findLeaf h.size; pure { s with stco := some a }
      else if h.fourcc = SAMPLE_TABLE_CHUNK_OFFSET_64 then do
        let a ← findLeaf h.size; pure { s with co64 := some a }
      else do skipContent h; pure s)
    (step := fun (s : StblBounds) q b =>
      if b.fc = SAMPLE_TABLE_CHUNK_OFFSET then { s with stco := some ⟨q, b.size⟩ }
      else if b.fc = SAMPLE_TABLE_CHUNK_OFFSET_64 then { s with co64 := some ⟨q, b.size⟩ } else s)
    (⟨⟨q, b.size⟩, none, none⟩ : StblBounds) hF
    (by rw [b.contentLen, hb, Nat.zero_add]; rfl) (fun k hk => hw k hk)
    (by
      intro k hk q s hat
      have hl := findLeaf_at (b := k) hF hat
      by_cases h1 : k.fc = SAMPLE_TABLE_CHUNK_OFFSET
      · rw [if_pos (show (id k).hd.fourcc = _ from h1), if_pos h1]
        exact P.bind_ok hl
      · rw [if_neg (show ¬ (id k).hd.fourcc = _ from h1), if_neg h1]
        by_cases h2 : k.fc = SAMPLE_TABLE_CHUNK_OFFSET_64
        · rw [if_pos (show (id k).hd.fourcc = _ from h2), if_pos h2]
          exact P.bind_ok hl
        · rw [if_neg (show ¬ (id k).hd.fourcc = _ from h2), if_neg h2, P.bind_ok (skipContent_box hat hF)]; rfl)
    hbody (Nat.zero_le _)
  rw [stbl_fold, Option.or_none, Option.or_none] at this
  refine this.trans ?_
  rw [b.ser_length, hb, Nat.add_assoc]; rfl

/-! ### `minf`, `mdia`, `trak` -/

/-- What is found for an interpreted child. -/
def kidAt {α β} (box : Kid α → Box) (g : Nat → Box → α → β) (q : Nat) (k : Kid α) : Option β :=
  match k with
  | .node _ a => some (g q (box k) a)
  | .raw _ => none

theorem find_kids {α β} {fc : Fourcc} {ser : α → Bytes} {P' : α → Prop} {find : Size → P β} {g : Nat → Box → α → β}
    {e F p} {ks : List (Kid α)} {limit : E Nat} (hF : Fit e F)
    (hlim : limit e = .ok (serL (Kid.box fc ser) ks).length)
    (hw : ∀ k ∈ ks, Kid.WF fc ser P' k)
    (hfind : ∀ (b : Box) a q, b.body = ser a → P' a → At F q b.ser →
      find b.size e F (q + b.headLen) = .ok (g q b a, q + b.ser.length))
    (hat : At F p (serL (Kid.box fc ser) ks)) :
    loop limit (lastHandle fc find) none 0 e F p
      = .ok (lastAt (Kid.box fc ser) (kidAt (Kid.box fc ser) g) p ks, p + (serL (Kid.box fc ser) ks).length) := by
  have := loop_kids (box := Kid.box fc ser) (ks := ks) (parsed := 0) (limit := limit) (handle := lastHandle fc find)
    (step := fun s q k => (kidAt (Kid.box fc ser) g q k).or s) (none : Option β) hF
    (by rw [hlim, Nat.zero_add]) (fun k hk => (hw k hk).1)
    (by
      intro k hk q s hat
      have hk' := (hw k hk).2
      cases k with
      | node ext a =>
        have h := hfind ⟨ext, fc, ser a⟩ a q rfl hk' hat
        rw [lastHandle, if_pos (show (Kid.box fc ser (.node ext a)).hd.fourcc = fc from rfl)]
        exact P.bind_ok h
      | raw b =>
        rw [lastHandle, if_neg (show ¬ (Kid.box fc ser (.raw b)).hd.fourcc = fc from hk'),
          P.bind_ok (skipContent_box hat hF)]
        rfl)
    hat (Nat.zero_le _)
  rw [this, foldAt_last, Option.or_none]

def minfB (q : Nat) (b : Box) (m : Minf) : Option StblBounds :=
  lastAt (Kid.box (cc 's' 't' 'b' 'l') Stbl.ser) (kidAt (Kid.box (cc 's' 't' 'b' 'l') Stbl.ser) stblB) (q + b.headLen) m
def mdiaB (q : Nat) (b : Box) (m : Mdia) : Option (Option StblBounds) :=
  lastAt (Kid.box (cc 'm' 'i' 'n' 'f') Minf.ser) (kidAt (Kid.box (cc 'm' 'i' 'n' 'f') Minf.ser) minfB) (q + b.headLen) m
def trakB (q : Nat) (b : Box) (m : Spec.Trak) : Option (Option (Option StblBounds)) :=
  lastAt (Kid.box (cc 'm' 'd' 'i' 'a') Mdia.ser) (kidAt (Kid.box (cc 'm' 'd' 'i' 'a') Mdia.ser) mdiaB) (q + b.headLen) m

theorem findMinf_at {e F q} {b : Box} {m : Minf} (hF : Fit e F) (hb : b.body = m.ser) (hw : m.WF) (hat : At F q b.ser) :
    findMinf b.size e F (q + b.headLen) = .ok (minfB q b m, q + b.ser.length) := by
  have hbody := Box.body_at hat
  rw [hb] at hbody
  rw [findMinf, P.bind_ok (findBounds_box b e)]
  refine (find_kids (fc := SAMPLE_TABLE) (find := findStbl) hF (by rw [b.contentLen, hb]; rfl) hw
    (fun b a q h1 h2 h3 => findStbl_at hF h1 h2 h3) hbody).trans ?_
  rw [b.ser_length, hb, Nat.add_assoc]; rfl

theorem findMdia_at {e F q} {b : Box} {m : Mdia} (hF : Fit e F) (hb : b.body = m.ser) (hw : m.WF) (hat : At F q b.ser) :
    findMdia b.size e F (q + b.headLen) = .ok (mdiaB q b m, q + b.ser.length) := by
  have hbody := Box.body_at hat
  rw [hb] at hbody
  rw [findMdia, P.bind_ok (findBounds_box b e)]
  refine (find_kids (fc := MEDIA_INFORMATION) (find := findMinf) hF (by rw [b.contentLen, hb]; rfl) hw
    (fun b a q h1 h2 h3 => findMinf_at hF h1 h2 h3) hbody).trans ?_
  rw [b.ser_length, hb, Nat.add_assoc]; rfl

theorem findTrak_at {e F q} {b : Box} {m : Spec.Trak} (hF : Fit e F) (hb : b.body = m.ser) (hw : m.WF) (hat : At F q b.ser) :
    findTrak b.size e F (q + b.headLen) = .ok (trakB q b m, q + b.ser.length) := by
  have hbody := Box.body_at hat
  rw [hb] at hbody
  rw [findTrak, P.bind_ok (findBounds_box b e)]
  refine (find_kids (fc := MEDIA) (find := findMdia) hF (by rw [b.contentLen, hb]; rfl) hw
    (fun b a q h1 h2 h3 => findMdia_at hF h1 h2 h3) hbody).trans ?_
  rw [b.ser_length, hb, Nat.add_assoc]; rfl

/-! ### `meta`, `udta` -/

def metaB (q : Nat) (b : Box) (m : Meta) : MetaBounds :=
  ⟨⟨q, b.size⟩, lastAt id (leafAt HANDLER_REFERENCE) (q + b.headLen + 4) m.kids,
    lastAt id (leafAt ITEM_LIST) (q + b.headLen + 4) m.kids⟩

theorem meta_fold (bd : AtomBounds) (x y : Option AtomBounds) (p : Nat) (s : List Box) :
    foldAt id (fun (s : MetaBounds) q b =>
      if b.fc = HANDLER_REFERENCE then { s with hdlr := some ⟨q, b.size⟩ }
      else if b.fc = ITEM_LIST then { s with ilst := some ⟨q, b.size⟩ } else s) ⟨bd, x, y⟩ p s
    = ⟨bd, (lastAt id (leafAt HANDLER_REFERENCE) p s).or x, (lastAt id (leafAt ITEM_LIST) p s).or y⟩ := by
  induction s generalizing x y p with
  | nil => rfl
  | cons b s ih =>
    rw [foldAt, lastAt, lastAt]
    by_cases h1 : b.fc = HANDLER_REFERENCE
    · have h2 : b.fc ≠ ITEM_LIST := by rw [h1]; decide
      simp only [leafAt, if_pos h1, if_neg h2, Option.or_assoc, Option.some_or, Option.none_or]
      rw [ih]
    · by_cases h2 : b.fc = ITEM_LIST
      · simp only [leafAt, if_pos h2, if_neg h1, Option.or_assoc, Option.some_or, Option.none_or]
        rw [ih]
      · simp only [leafAt, if_neg h2, if_neg h1, Option.or_assoc, Option.none_or]
        rw [ih]

theorem findMeta_at {e F q} {b : Box} {m : Meta} (hF : Fit e F) (hb : b.body = m.ser) (hw : m.WF) (hat : At F q b.ser) :
    findMeta b.size e F (q + b.headLen) = .ok (metaB q b m, q + b.ser.length) := by
  have hbody := Box.body_at hat
  have hlen : b.body.length = 4 + (serL id m.kids).length := by
    rw [hb, Meta.ser, List.length_append, List.length_cons, hw.1]
  rw [hb, Meta.ser, At_append, List.length_cons, hw.1] at hbody
  obtain ⟨ha1, ha2⟩ := hbody
  rw [findMeta, P.bind_ok (findBounds_box b e), P.bind_ok (parseFullHead_at ha1 hw.1 e)]
  simp only []
  rw [if_neg (by simp)]
  have := loop_kids (box := id) (ks := m.kids) (parsed := 4) (limit := b.size.contentLen)
    (handle := fun (s : MetaBounds) h =>
      if h.fourcc = HANDLER_REFERENCE then do
        let a ← findLeaf h.size; pure { s with hdlr := some a }
      else if h.fourcc = ITEM_LIST then do
        let a ← findLeaf h.size; pure { s with ilst := some a }
      else do skipContent h; pure s)
    (step := fun (s : MetaBounds) q b =>
      if b.fc = HANDLER_REFERENCE then { s with hdlr := some ⟨q, b.size⟩ }
      else if b.fc = ITEM_LIST then { s with ilst := some ⟨q, b.size⟩ } else s)
    (⟨⟨q, b.size⟩, none, none⟩ : MetaBounds) hF
    (by rw [b.contentLen, hlen]) (fun k hk => hw.2 k hk)
    (by
      intro k hk q s hat
      have hl := findLeaf_at (b := k) hF hat
      by_cases h1 : k.fc = HANDLER_REFERENCE
      · rw [if_pos (show (id k).hd.fourcc = _ from h1), if_pos h1]
        exact P.bind_ok hl
      · rw [if_neg (show ¬ (id k).hd.fourcc = _ from h1), if_neg h1]
        by_cases h2 : k.fc = ITEM_LIST
        · rw [if_pos (show (id k).hd.fourcc = _ from h2), if_pos h2]
          exact P.bind_ok hl
        · rw [if_neg (show ¬ (id k).hd.fourcc = _ from h2), if_neg h2, P.bind_ok (skipContent_box hat hF)]; rfl)
    ha2 (by omega)
  rw [meta_fold, Option.or_none, Option.or_none] at this
  refine this.trans ?_
  rw [b.ser_length, hlen]
  congr 2; omega

def udtaB (q : Nat) (b : Box) (u : Udta) : UdtaBounds :=
  ⟨⟨q, b.size⟩, lastAt (Kid.box (cc 'm' 'e' 't' 'a') Meta.ser) (kidAt (Kid.box (cc 'm' 'e' 't' 'a') Meta.ser) metaB)
    (q + b.headLen) u⟩

theorem udta_fold {κ} {box : κ → Box} (f : Nat → κ → Option MetaBounds) (bd : AtomBounds) (x : Option MetaBounds) (p : Nat) (s : List κ) :
    foldAt box (fun (s : UdtaBounds) q b => ⟨s.bounds, (f q b).or s.meta?⟩) ⟨bd, x⟩ p s
    = ⟨bd, (lastAt box f p s).or x⟩ := by
  induction s generalizing x p with
  | nil => rfl
  | cons b s ih => rw [foldAt, lastAt, ih, Option.or_assoc]

theorem findUdta_at {e F q} {b : Box} {u : Udta} (hF : Fit e F) (hb : b.body = u.ser) (hw : u.WF) (hat : At F q b.ser) :
    findUdta b.size e F (q + b.headLen) = .ok (udtaB q b u, q + b.ser.length) := by
  have hbody := Box.body_at hat
  rw [hb] at hbody
  rw [findUdta, P.bind_ok (findBounds_box b e)]
  have := loop_kids (box := Kid.box (cc 'm' 'e' 't' 'a') Meta.ser) (ks := u) (parsed := 0) (limit := b.size.contentLen)
    (handle := fun (s : UdtaBounds) h =>
      if h.fourcc = METADATA then do let a ← findMeta h.size; pure { s with meta? := some a }
      else do skipContent h; pure s)
    (step := fun (s : UdtaBounds) q k => ⟨s.bounds, (kidAt (Kid.box (cc 'm' 'e' 't' 'a') Meta.ser) metaB q k).or s.meta?⟩)
    (⟨⟨q, b.size⟩, none⟩ : UdtaBounds) hF
    (by rw [b.contentLen, hb, Nat.zero_add]; rfl) (fun k hk => (hw k hk).1)
    (by
      intro k hk q s hat
      have hk' := (hw k hk).2
      cases k with
      | node ext a =>
        have h := findMeta_at (b := ⟨ext, cc 'm' 'e' 't' 'a', a.ser⟩) hF rfl hk' hat
        rw [if_pos (show (Kid.box (cc 'm' 'e' 't' 'a') Meta.ser (.node ext a)).hd.fourcc = METADATA from rfl)]
        exact P.bind_ok h
      | raw b =>
        rw [if_neg (show ¬ (Kid.box (cc 'm' 'e' 't' 'a') Meta.ser (.raw b)).hd.fourcc = METADATA from hk'),
          P.bind_ok (skipContent_box hat hF)]
        rfl)
    hbody (Nat.zero_le _)
  rw [udta_fold, Option.or_none] at this
  refine this.trans ?_
  rw [b.ser_length, hb, Nat.add_assoc]; rfl

/-! ### `moov` -/

/-- The children of a kind, in order. -/
def allAt {κ β} (box : κ → Box) (f : Nat → κ → Option β) : Nat → List κ → List β
  | _, [] => []
  | p, k :: ks => (f p k).toList ++ allAt box f (p + (box k).ser.length) ks

def trakAt (q : Nat) (k : MoovKid) : Option (Option (Option (Option StblBounds))) :=
  match k with
  | .trak _ t => some (trakB q k.box t)
  | _ => none

def udtaAt (q : Nat) (k : MoovKid) : Option UdtaBounds :=
  match k with
  | .udta _ u => some (udtaB q k.box u)
  | _ => none

def moovB (q : Nat) (b : Box) (m : Spec.Moov) : MoovBounds :=
  ⟨⟨q, b.size⟩, allAt MoovKid.box trakAt (q + b.headLen) m, lastAt MoovKid.box udtaAt (q + b.headLen) m⟩

theorem moov_fold {κ} {box : κ → Box} (f : Nat → κ → Option (Option (Option (Option StblBounds))))
    (g : Nat → κ → Option UdtaBounds) (bd : AtomBounds) (x) (y : Option UdtaBounds) (p : Nat) (s : List κ) :
    foldAt box (fun (s : MoovBounds) q k => ⟨s.bounds, s.trak ++ (f q k).toList, (g q k).or s.udta⟩) ⟨bd, x, y⟩ p s
    = ⟨bd, x ++ allAt box f p s, (lastAt box g p s).or y⟩ := by
  induction s generalizing x y p with
  | nil => simp [foldAt, allAt, lastAt]
  | cons b s ih => rw [foldAt, lastAt, allAt, ih, Option.or_assoc, List.append_assoc]

theorem findMoov_at {e F q} {b : Box} {m : Spec.Moov} (hF : Fit e F) (hb : b.body = m.ser) (hw : m.WF) (hat : At F q b.ser) :
    findMoov b.size e F (q + b.headLen) = .ok (moovB q b m, q + b.ser.length) := by
  have hbody := Box.body_at hat
  rw [hb] at hbody
  rw [findMoov, P.bind_ok (findBounds_box b e)]
  have := loop_kids (box := MoovKid.box) (ks := m) (parsed := 0) (limit := b.size.contentLen)
    (handle := fun (s : MoovBounds) h =>
      if h.fourcc = TRACK then do let a ← findTrak h.size; pure { s with trak := s.trak ++ [a] }
      else if h.fourcc = USER_DATA then do let a ← findUdta h.size; pure { s with udta := some a }
      else do skipContent h; pure s)
    (step := fun (s : MoovBounds) q k => ⟨s.bounds, s.trak ++ (trakAt q k).toList, (udtaAt q k).or s.udta⟩)
    (⟨⟨q, b.size⟩, [], none⟩ : MoovBounds) hF
    (by rw [b.contentLen, hb, Nat.zero_add]; rfl) (fun k hk => (hw k hk).1)
    (by
      intro k hk q s hat
      have hk' := (hw k hk).2
      cases k with
      | trak ext a =>
        have h := findTrak_at (b := ⟨ext, cc 't' 'r' 'a' 'k', a.ser⟩) hF rfl hk' hat
        rw [if_pos (show (MoovKid.box (.trak ext a)).hd.fourcc = TRACK from rfl)]
        exact P.bind_ok h
      | udta ext a =>
        have h := findUdta_at (b := ⟨ext, cc 'u' 'd' 't' 'a', a.ser⟩) hF rfl hk' hat
        rw [if_neg (show ¬ (MoovKid.box (.udta ext a)).hd.fourcc = TRACK from (by decide : ¬ cc 'u' 'd' 't' 'a' = TRACK)),
          if_pos (show (MoovKid.box (.udta ext a)).hd.fourcc = USER_DATA from rfl)]
        refine (P.bind_ok h).trans ?_
        simp [trakAt, udtaAt]; rfl
      | raw b =>
        rw [if_neg (show ¬ (MoovKid.box (.raw b)).hd.fourcc = TRACK from hk'.1),
          if_neg (show ¬ (MoovKid.box (.raw b)).hd.fourcc = USER_DATA from hk'.2),
          P.bind_ok (skipContent_box hat hF)]
        simp [trakAt, udtaAt]; rfl)
    hbody (Nat.zero_le _)
  rw [moov_fold, Option.or_none, List.nil_append] at this
  refine this.trans ?_
  rw [b.ser_length, hb, Nat.add_assoc]; rfl

/-! ### The top level -/

/-- The handler of the top level loop. -/
def topHandle (s : TopBounds) (h : Head) : P TopBounds :=
  if h.fourcc = MOVIE then do let a ← findMoov h.size; pure { s with moov := some a }
  else if h.fourcc = MEDIA_DATA then do let a ← findLeaf h.size; pure { s with mdat := some a }
  else do skipContent h; pure s

theorem topHandle_other {e F q s} {b : Box} (hF : Fit e F) (hat : At F q b.ser) (hn : b.fc ≠ cc 'm' 'o' 'o' 'v') :
    topHandle s b.hd e F (q + b.headLen)
      = .ok (⟨s.moov, (leafAt MEDIA_DATA q b).or s.mdat⟩, q + b.ser.length) := by
  rw [topHandle, if_neg (show ¬ b.hd.fourcc = MOVIE from hn), leafAt]
  by_cases hm : b.fc = MEDIA_DATA
  · rw [if_pos (show b.hd.fourcc = MEDIA_DATA from hm), if_pos hm]
    exact P.bind_ok (findLeaf_at hF hat)
  · rw [if_neg (show ¬ b.hd.fourcc = MEDIA_DATA from hm), if_neg hm, P.bind_ok (skipContent_box hat hF)]; rfl

/-- A top level atom: the movie atom, or another one. -/
abbrev TopKid := Kid Spec.Moov

def topStep (s : TopBounds) (q : Nat) (k : TopKid) : TopBounds :=
  match k with
  | .node _ m => ⟨some (moovB q (k.box (cc 'm' 'o' 'o' 'v') Moov.ser) m), s.mdat⟩
  | .raw b => ⟨s.moov, (leafAt MEDIA_DATA q b).or s.mdat⟩

theorem topStep_raw (s : TopBounds) (p : Nat) (bs : List Box) :
    foldAt (Kid.box (cc 'm' 'o' 'o' 'v') Moov.ser) topStep s p (bs.map Kid.raw)
      = ⟨s.moov, (lastAt id (leafAt MEDIA_DATA) p bs).or s.mdat⟩ := by
  induction bs generalizing s p with
  | nil => rfl
  | cons b bs ih =>
    rw [List.map_cons, foldAt, ih, lastAt]
    simp only [topStep, Option.or_assoc]
    rfl

theorem foldAt_append {κ σ} (box : κ → Box) (step : σ → Nat → κ → σ) (s : σ) (p : Nat) (A B : List κ) :
    foldAt box step s p (A ++ B) = foldAt box step (foldAt box step s p A) (p + (serL box A).length) B := by
  induction A generalizing s p with
  | nil => simp [foldAt, serL_nil]
  | cons k ks ih => rw [List.cons_append, foldAt, ih, foldAt, serL_cons, List.length_append, Nat.add_assoc]

theorem serL_raw {α} (fc : Fourcc) (ser : α → Bytes) (bs : List Box) : serL (Kid.box fc ser) (bs.map Kid.raw) = serL id bs := by
  rw [serL_map]; rfl

/-- The position of the movie atom of a file at position `p`. -/
def Spec.File.moovPos (f : File) (p : Nat) : Nat := p + f.ftypBox.ser.length + (serL id f.pre).length

/-- The position of the last `mdat`, or 0. -/
def Spec.File.mdatPos (f : File) (p : Nat) : Nat :=
  match (lastAt id (leafAt MEDIA_DATA) (f.moovPos p + f.moovBox.ser.length) f.post).or
    (lastAt id (leafAt MEDIA_DATA) (p + f.ftypBox.ser.length) f.pre) with
  | some b => b.pos
  | none => 0

theorem findTop_at {e p} {f : File} {X : Bytes} (hF : Fit e (X ++ f.ser)) (hw : f.WF) (hp : X.length = p) :
    findTop e (X ++ f.ser) p = .ok ((f.mdatPos p, moovB (f.moovPos p) f.moovBox f.moov), p + f.ser.length) := by
  obtain ⟨h1, h2, h3, h4, h5⟩ := hw
  have hat : At (X ++ f.ser) p f.ser := At_intro' X [] (by simp) hp
  have hser : f.ser = f.ftypBox.ser ++ serL (Kid.box (cc 'm' 'o' 'o' 'v') Moov.ser)
      (f.pre.map Kid.raw ++ (Kid.node f.moovExt f.moov :: f.post.map Kid.raw)) := by
    rw [serL_append, serL_cons, serL_raw, serL_raw]
    simp only [File.ser, List.append_assoc]; rfl
  have hat' : At (X ++ f.ser) p (f.ftypBox.ser ++ serL (Kid.box (cc 'm' 'o' 'o' 'v') Moov.ser)
      (f.pre.map Kid.raw ++ (Kid.node f.moovExt f.moov :: f.post.map Kid.raw))) := hser ▸ hat
  have a1 := hat'.left
  have a2 := hat'.right rfl
  have hle := hat.le
  have hft : parseFtyp e (X ++ f.ser) p = .ok (f.ftyp, p + f.ftypBox.ser.length) := parseFtyp_at hF h1 a1
  have hrem := remaining_at hF (show p + f.ftypBox.ser.length ≤ (X ++ f.ser).length by
    have := a2.le; omega)
  have hl : (X ++ f.ser).length - (p + f.ftypBox.ser.length) = (serL (Kid.box (cc 'm' 'o' 'o' 'v') Moov.ser)
      (f.pre.map Kid.raw ++ (Kid.node f.moovExt f.moov :: f.post.map Kid.raw))).length := by
    have h : f.ser.length = _ := congrArg List.length hser
    rw [List.length_append] at h
    rw [List.length_append]
    omega
  rw [hl] at hrem
  have hloop := loop_kids (box := Kid.box (cc 'm' 'o' 'o' 'v') Moov.ser)
    (ks := f.pre.map Kid.raw ++ (Kid.node f.moovExt f.moov :: f.post.map Kid.raw)) (parsed := 0)
    (limit := pure (serL (Kid.box (cc 'm' 'o' 'o' 'v') Moov.ser)
      (f.pre.map Kid.raw ++ (Kid.node f.moovExt f.moov :: f.post.map Kid.raw))).length)
    (handle := topHandle) (step := topStep) (⟨none, none⟩ : TopBounds) hF (by rw [Nat.zero_add]; rfl)
    (by
      intro k hk
      rw [List.mem_append, List.mem_cons, List.mem_map, List.mem_map] at hk
      rcases hk with ⟨b, hb, rfl⟩ | rfl | ⟨b, hb, rfl⟩
      · exact (h4 b hb).1
      · exact h2
      · exact (h5 b hb).1)
    (by
      intro k hk q s hat
      rw [List.mem_append, List.mem_cons, List.mem_map, List.mem_map] at hk
      rcases hk with ⟨b, hb, rfl⟩ | rfl | ⟨b, hb, rfl⟩
      · exact topHandle_other hF hat (h4 b hb).2
      · have hm := findMoov_at (b := ⟨f.moovExt, cc 'm' 'o' 'o' 'v', f.moov.ser⟩) hF rfl h3 hat
        rw [topHandle, if_pos (show (Kid.box (cc 'm' 'o' 'o' 'v') Moov.ser (.node f.moovExt f.moov)).hd.fourcc = MOVIE from rfl)]
        exact P.bind_ok hm
      · exact topHandle_other hF hat (h5 b hb).2)
    a2 (Nat.zero_le _)
  rw [findTop, P.bind_ok hft, P.bind_ok hrem]
  refine (P.bind_ok hloop).trans ?_
  rw [foldAt_append, topStep_raw, foldAt, topStep_raw, serL_raw, topStep]
  simp only [Option.or_none]
  have hend : p + f.ftypBox.ser.length + (serL (Kid.box (cc 'm' 'o' 'o' 'v') Moov.ser)
      (f.pre.map Kid.raw ++ (Kid.node f.moovExt f.moov :: f.post.map Kid.raw))).length = p + f.ser.length := by
    have h : f.ser.length = _ := congrArg List.length hser
    rw [List.length_append] at h
    omega
  rw [hend]
  rfl

end Mp4
