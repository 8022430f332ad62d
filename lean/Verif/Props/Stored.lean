import Verif.Props.Accessors
import Verif.Props.Genre
import Verif.Props.Dump
/-
C82: what the typed setters store, byte by byte.
-/
namespace Mp4.Props
open Mp4 Spec

/-! ### Specification -/

/-- A `data` atom: size, name, type code, locale, content. -/
def dataAtom (v : Nat × Bytes) : Bytes :=
  be32 (16 + v.2.length) ++ [0x64, 0x61, 0x74, 0x61] ++ be32 v.1 ++ [0, 0, 0, 0] ++ v.2

/-- An item with the given values (type code and content). -/
def itemAtom (fc : Fourcc) (vs : List (Nat × Bytes)) : Bytes :=
  be32 (8 + (vs.flatMap dataAtom).length) ++ fc.bytes ++ vs.flatMap dataAtom

/-- The tag has exactly one entry for the item `fc`, and what is written for it (if it is smaller than
4 GiB) is the item with exactly the values `vs`. -/
def Stores (t : Tag) (fc : Fourcc) (vs : List (Nat × Bytes)) : Prop :=
  ∃ A a B, t.atoms = A ++ a :: B ∧ a.ident = .fourcc fc ∧ (∀ x ∈ A ++ B, x.ident ≠ .fourcc fc) ∧
    ((itemAtom fc vs).length < 2^32 →
      (entryOf a).box.ser = itemAtom fc vs ∧ ∀ e, ((a.write e).1.flatten, (a.write e).2) = (itemAtom fc vs, .ok ()))

/-- The documented codes of the media types (documentation of `MediaType`, src/types.rs:77-96). -/
def mediaCodes : List (MediaType × UInt8) :=
  [(.movie, 0), (.normal, 1), (.audioBook, 2), (.whackedBookmark, 5), (.musicVideo, 6), (.shortFilm, 9),
   (.tvShow, 10), (.booklet, 11)]

/-- The codes of the ratings (documentation of `AdvisoryRating`, src/types.rs:150-160, which leaves the
code of `Explicit` open; the constant in src/types.rs:31 is 4). -/
def ratingCodes : List (AdvisoryRating × UInt8) := [(.inoffensive, 0), (.clean, 2), (.explicit, 4)]

/-- A number as two bytes, most significant first. -/
def two (n : Nat) : Bytes := [UInt8.ofNat (n / 256), UInt8.ofNat n]

/-- A number as four bytes, most significant first. -/
def four (n : Nat) : Bytes :=
  [UInt8.ofNat (n / 16777216), UInt8.ofNat (n / 65536), UInt8.ofNat (n / 256), UInt8.ofNat n]

/-- The type code and the content of an image. -/
def imageValue (i : Img) : Nat × Bytes :=
  (match i.fmt with | .jpeg => 13 | .png => 14 | .bmp => 27, i.data)

/-! ### Proof -/

theorem serL_itemAtom (fc : Fourcc) (ds : List Data) :
    (Entry.item false fc (ds.map dataPart)).box.ser = itemAtom fc (ds.map fun d => (typeCode d, payload d)) := by
  have key : ∀ ds : List Data, serL Part.box (ds.map dataPart)
      = (ds.map fun d => (typeCode d, payload d)).flatMap dataAtom := by
    intro ds
    rw [serL_map, List.flatMap_map]
    congr 1
    funext d
    simp only [dataPart, Part.box, Box.ser, Box.head, Bool.false_eq_true, if_false, dataAtom]
    have hlen : (be32 (typeCode d) ++ [0, 0, 0, 0] ++ payload d).length + 8 = 16 + (payload d).length := by
      simp [be32_length]; omega
    rw [hlen]
    simp; rfl
  simp only [Entry.box, Box.ser, Box.head, Bool.false_eq_true, if_false, key, itemAtom]
  rw [Nat.add_comm 8]

theorem stores_of {t : Tag} (ht : t.NoDup) {i : Ident} {fc : Fourcc} (hi : i.toData = .fourcc fc) {ds : List Data}
    (hd : t.dataOf i = ds) (hne : ds ≠ []) (h16 : ∀ d ∈ ds, noUtf16Text d) :
    Stores t fc (ds.map fun d => (typeCode d, payload d)) := by
  subst hd
  simp only [Tag.dataOf] at hne h16 ⊢
  cases hf : findAtom i t.atoms with
  | none => simp [hf] at hne
  | some a =>
    simp only [hf] at hne h16 ⊢
    have hid : a.ident = .fourcc fc := by
      have := List.find?_some hf
      simpa [Ident.matches_eq, hi] using this
    obtain ⟨A, B, e⟩ := List.append_of_mem (List.mem_of_find?_eq_some hf)
    refine ⟨A, a, B, e, hid, ?_, fun hs => ?_⟩
    · intro x hx hxi
      simp only [Tag.NoDup, e, List.map_append, List.map_cons, List.nodup_append, List.nodup_cons] at ht
      obtain ⟨_, ⟨h2, _⟩, h3⟩ := ht
      rcases List.mem_append.mp hx with hx | hx
      · exact h3 x.ident (List.mem_map_of_mem hx) a.ident (by simp) (by rw [hxi, hid])
      · exact h2 (by rw [hid, ← hxi]; exact List.mem_map_of_mem hx)
    · have hser : (entryOf a).box.ser = itemAtom fc (a.data.map fun d => (typeCode d, payload d)) := by
        rw [entryOf, hid]; exact serL_itemAtom fc a.data
      refine ⟨hser, ?_⟩
      rw [← hser]
      refine (atomWrite_emits ⟨h16, fun _ => ?_⟩).apply
      rw [← hser, Box.ser_length] at hs
      have : 8 ≤ (entryOf a).box.headLen := by rw [Box.headLen]; split <;> omega
      omega

theorem toBe_two_eq (n : Nat) : toBe 2 n = two n := by
  have h : ∀ x : Nat, UInt8.ofNat (x % 256) = UInt8.ofNat x := fun x => by apply UInt8.toNat_inj.mp; simp
  simp [toBe, two, h]

theorem toBe_four_eq (n : Nat) : toBe 4 n = four n := by
  have h : ∀ x : Nat, UInt8.ofNat (x % 256) = UInt8.ofNat x := fun x => by apply UInt8.toNat_inj.mp; simp
  simp [toBe, four, Nat.div_div_eq_div_mul, h]

theorem op_noDup {t : Tag} (ht : t.NoDup) (op : TagOp) : (op.run t).NoDup :=
  C01_unique_identifiers t [op] (.inr (.inl ht))

theorem stores_set {t : Tag} (ht : t.NoDup) {i : Ident} {fc : Fourcc} (hi : i.toData = .fourcc fc) {d : Data}
    (h : noUtf16Text d) : Stores (t.setData i d) fc [(typeCode d, payload d)] :=
  stores_of (ds := [d]) (op_noDup ht (.set i d)) hi (by rw [TagOp.run, C02_set, if_pos rfl]) (by simp) (by simpa using h)

theorem stores_set_all {t : Tag} (ht : t.NoDup) {i : Ident} {fc : Fourcc} (hi : i.toData = .fourcc fc) {ds : List Data}
    (hne : ds ≠ []) (h : ∀ d ∈ ds, noUtf16Text d) :
    Stores (t.setAllData i ds) fc (ds.map fun d => (typeCode d, payload d)) :=
  stores_of (ds := ds) (op_noDup ht (.setAll i ds)) hi (by rw [TagOp.run, C02_set_all, if_pos rfl]) hne h

/-- What a stored list of values gains if values are added. -/
theorem stores_add_all {t : Tag} (ht : t.NoDup) {i : Ident} {fc : Fourcc} (hi : i.toData = .fourcc fc) {ds : List Data}
    (hne : ds ≠ []) (h0 : ∀ d ∈ t.dataOf i, noUtf16Text d) (h : ∀ d ∈ ds, noUtf16Text d) :
    Stores (t.addAllData i ds) fc ((t.dataOf i ++ ds).map fun d => (typeCode d, payload d)) :=
  stores_of (op_noDup ht (.addAll i ds)) hi (by rw [TagOp.run, C03_add_all, if_pos rfl]) (by simp [hne])
    (fun d hd => (List.mem_append.mp hd).elim (h0 d) (h d))

theorem ofImg_value (x : Img) : (typeCode (.ofImg x), payload (.ofImg x)) = imageValue x ∧ noUtf16Text (.ofImg x) := by
  cases x with
  | mk f d => cases f <;> exact ⟨rfl, trivial⟩

/-! ### C82 -/

/-- **C82.** Texts are stored as UTF-8 with type code 1, flags as the byte 1 with type code 21, numbers as
two or four bytes, most significant first, with type code 21. (`i` is the identifier of the accessor,
see C15.) -/
theorem C82_generated (t : Tag) (ht : t.NoDup) (i : Ident) (fc : Fourcc) (hi : i.toData = .fourcc fc) (s : Str)
    (l : List Str) (hl : l ≠ []) (n : Nat) :
    Stores (t.setString i s) fc [(1, utf8 s)] ∧
    Stores (t.setStrings i l) fc (l.map fun s => (1, utf8 s)) ∧
    Stores (t.setFlag i) fc [(21, [1])] ∧
    Stores (t.setInt i 2 n) fc [(21, two n)] ∧
    Stores (t.setInt i 4 n) fc [(21, four n)] := by
  refine ⟨stores_set ht hi trivial, ?_, stores_set ht hi trivial, ?_, ?_⟩
  · have := stores_set_all ht hi (ds := l.map .utf8) (by simpa using hl) (by simp [noUtf16Text])
    rw [List.map_map] at this
    exact this
  · rw [← toBe_two_eq]; exact stores_set ht hi trivial
  · rw [← toBe_four_eq]; exact stores_set ht hi trivial

/-- **C82.** Added texts come behind the values that are there. -/
theorem C82_added (t : Tag) (ht : t.NoDup) (i : Ident) (fc : Fourcc) (hi : i.toData = .fourcc fc)
    (L : List Str) (h : t.dataOf i = L.map .utf8) (l : List Str) (hl : l ≠ []) :
    Stores (t.addStrings i l) fc ((L ++ l).map fun s => (1, utf8 s)) := by
  have := stores_add_all ht hi (ds := l.map .utf8) (by simpa using hl) (by simp [h, noUtf16Text]) (by simp [noUtf16Text])
  rw [h, ← List.map_append, List.map_map] at this
  exact this

/-- **C82.** Images are stored as they are, with the type code of their format. -/
theorem C82_artwork (t : Tag) (ht : t.NoDup) (x : Img) (l : List Img) (hl : l ≠ []) :
    Stores (t.setArtwork x) (cc 'c' 'o' 'v' 'r') [imageValue x] ∧
    Stores (t.setArtworks l) (cc 'c' 'o' 'v' 'r') (l.map imageValue) := by
  constructor
  · rw [← (ofImg_value x).1]; exact stores_set ht rfl (ofImg_value x).2
  · have := stores_set_all ht (i := .fourcc ARTWORK) (fc := ARTWORK) rfl (ds := l.map .ofImg) (by simpa using hl)
      (fun d hd => by obtain ⟨x, _, rfl⟩ := List.mem_map.mp hd; exact (ofImg_value x).2)
    rw [List.map_map] at this
    have e : (fun d => (typeCode d, payload d)) ∘ Data.ofImg = imageValue := funext fun x => (ofImg_value x).1
    rw [e] at this
    exact this

/-- **C82.** Media types and ratings are stored as the one documented byte, with type code 0. -/
theorem C82_codes (t : Tag) (ht : t.NoDup) :
    (∀ m, ∃ c, (m, c) ∈ mediaCodes ∧ Stores (t.setMediaType m) (cc 's' 't' 'i' 'k') [(0, [c])]) ∧
    (∀ r, ∃ c, (r, c) ∈ ratingCodes ∧ Stores (t.setAdvisoryRating r) (cc 'r' 't' 'n' 'g') [(0, [c])]) := by
  constructor
  · intro m
    refine ⟨m.code, by cases m <;> decide, ?_⟩
    exact stores_set ht (i := .fourcc MEDIA_TYPE) (fc := MEDIA_TYPE) rfl (d := .reserved _) trivial
  · intro r
    refine ⟨r.code, by cases r <;> decide, ?_⟩
    exact stores_set ht (i := .fourcc ADVISORY_RATING) (fc := ADVISORY_RATING) rfl (d := .reserved _) trivial

/-- **C82.** Every documented code is read as the documented media type, every code of the table as the
documented rating. -/
theorem C82_codes_read (t : Tag) :
    (∀ m c v r, (m, c) ∈ mediaCodes → t.bytesOf (.fourcc (cc 's' 't' 'i' 'k')) = (c :: v) :: r → t.mediaType = some m) ∧
    (∀ x c v r, (x, c) ∈ ratingCodes → t.bytesOf (.fourcc (cc 'r' 't' 'n' 'g')) = (c :: v) :: r →
      t.advisoryRating = some x) := by
  constructor
  · intro m c v r hm h
    have h' : t.bytesOf (.fourcc MEDIA_TYPE) = (c :: v) :: r := h
    simp only [mediaCodes, List.mem_cons, List.not_mem_nil, or_false, Prod.mk.injEq] at hm
    rw [((C17_get t).2 m)]
    rcases hm with ⟨rfl, rfl⟩ | ⟨rfl, rfl⟩ | ⟨rfl, rfl⟩ | ⟨rfl, rfl⟩ | ⟨rfl, rfl⟩ | ⟨rfl, rfl⟩ | ⟨rfl, rfl⟩ | ⟨rfl, rfl⟩ <;>
      exact ⟨v, r, h'⟩
  · intro x c v r hx h
    have h' : t.bytesOf (.fourcc ADVISORY_RATING) = (c :: v) :: r := h
    simp only [ratingCodes, List.mem_cons, List.not_mem_nil, or_false, Prod.mk.injEq] at hx
    rw [(C18_get t).1 c v r h']
    rcases hx with ⟨rfl, rfl⟩ | ⟨rfl, rfl⟩ | ⟨rfl, rfl⟩ <;> rfl

/-- **C82.** Genre codes are stored as two bytes, most significant first, with type code 0. -/
theorem C82_genre (t : Tag) (ht : t.NoDup) (c : Nat) (cs : List Nat) (hcs : cs ≠ []) :
    Stores (t.setStandardGenre c) (cc 'g' 'n' 'r' 'e') [(0, two c)] ∧
    Stores (t.setStandardGenres cs) (cc 'g' 'n' 'r' 'e') (cs.map fun c => (0, two c)) := by
  constructor
  · rw [← toBe_two_eq]
    exact stores_set ht (i := .fourcc STANDARD_GENRE) (fc := STANDARD_GENRE) rfl (d := .reserved _) trivial
  · have := stores_set_all ht (i := .fourcc STANDARD_GENRE) (fc := STANDARD_GENRE) rfl
      (ds := cs.map fun c => .reserved (toBe 2 c)) (by simpa using hcs) (by simp [noUtf16Text])
    rw [List.map_map] at this
    have e : (fun d => (typeCode d, payload d)) ∘ (fun c => Data.reserved (toBe 2 c)) = fun c => (0, two c) :=
      funext fun c => by rw [← toBe_two_eq]; rfl
    rw [e] at this
    exact this

theorem setPair_new {t : Tag} {i : Ident} (h : t.bytesOf i = []) (n m : Nat) :
    t.setPair i n m = t.setData i (.reserved ([0, 0] ++ two n ++ two m)) ∧
    t.setNumber i n = t.setData i (.reserved ([0, 0] ++ two n ++ [0, 0])) ∧
    t.setTotal i m = t.setData i (.reserved ([0, 0] ++ [0, 0] ++ two m)) := by
  have hn : ∀ f, t.withFirstBytes i f = none := by
    intro f
    have := withFirstBytes_isSome t i f
    rw [h] at this
    simpa using this
  rw [setPair_eq, setNumber_eq, setTotal_eq, hn, hn, hn]
  rw [Option.getD_none, Option.getD_none, Option.getD_none, tupNew, tupNew, tupNew, toBe_two_eq, toBe_two_eq,
    toBe_two_eq]
  exact ⟨rfl, rfl, rfl⟩

/-- **C82.** Without a byte value, a number and a total are stored as six bytes with type code 0: two zero
bytes, the number, the total, each most significant byte first; one that is not given is 0. -/
theorem C82_pair (t : Tag) (ht : t.NoDup) (i : Ident) (fc : Fourcc) (hi : i = trackI ∧ fc = cc 't' 'r' 'k' 'n' ∨
      i = discI ∧ fc = cc 'd' 'i' 's' 'k') (h : t.bytesOf i = []) (n m : Nat) :
    Stores (t.setPair i n m) fc [(0, [0, 0] ++ two n ++ two m)] ∧
    Stores (t.setNumber i n) fc [(0, [0, 0] ++ two n ++ [0, 0])] ∧
    Stores (t.setTotal i m) fc [(0, [0, 0] ++ [0, 0] ++ two m)] := by
  obtain ⟨h1, h2, h3⟩ := setPair_new h n m
  rw [h1, h2, h3]
  have hd : i.toData = .fourcc fc := by rcases hi with ⟨rfl, rfl⟩ | ⟨rfl, rfl⟩ <;> rfl
  exact ⟨stores_set ht hd trivial, stores_set ht hd trivial, stores_set ht hd trivial⟩

theorem modify_split (f : Bytes → Bytes) (A B : List Data) (d : Data) (hA : ∀ x ∈ A, x.bytes? = none)
    (hd : d.bytes? = some v) :
    (A ++ d :: B).findIdx? Data.isBytes = some A.length ∧
    (A ++ d :: B).modify A.length (Data.modBytes f) = A ++ d.modBytes f :: B := by
  induction A with
  | nil => simp [List.findIdx?_cons, isBytes_iff, hd, List.modify]
  | cons a A ih =>
    obtain ⟨h1, h2⟩ := ih (fun x hx => hA x (by simp [hx]))
    have ha : a.isBytes = false := by rw [isBytes_iff, hA a (by simp)]; rfl
    constructor
    · rw [List.cons_append, List.findIdx?_cons, ha, h1]; rfl
    · simp [List.modify_succ_cons, h2]

theorem firstBytes_split {t : Tag} {i : Ident} {A B : List Data} {d : Data} {v : Bytes} (f : Bytes → Bytes) (x : Data)
    (ht : t.dataOf i = A ++ d :: B) (hA : ∀ x ∈ A, x.bytes? = none) (hd : d.bytes? = some v) :
    ((t.withFirstBytes i f).getD (t.setData i x)).dataOf i = A ++ d.modBytes f :: B := by
  rw [dataOf_abs, abs_firstBytes, OMap.firstBytes, ← dataOf_abs, ht, (modify_split f A B d hA hd).1]
  simp only [OMap.upd, if_true]
  exact (modify_split f A B d hA hd).2

/-- At least `n` bytes, filled up with zeros. -/
def filled (v : Bytes) (n : Nat) : Bytes := v ++ List.replicate (n - v.length) 0

theorem setNumber_bytes (v : Bytes) (n : Nat) :
    tupSetNumber v n = (filled v 4).take 2 ++ two n ++ (filled v 4).drop 4 := by
  rw [tupSetNumber, setBeInt_eq, toBe_two_eq]; rfl

theorem setTotal_bytes (v : Bytes) (n : Nat) :
    tupSetTotal v n = (filled v 6).take 4 ++ two n ++ (filled v 6).drop 6 := by
  rw [tupSetTotal, setBeInt_eq, toBe_two_eq]; rfl

/-- **C82.** If there is a byte value already, the first one keeps its type and its other bytes: only the
bytes 2 and 3 (number) and 4 and 5 (total) are replaced, and a value that is too short is filled up with
zeros. All other values stay as they are. -/
theorem C82_pair_update (t : Tag) (i : Ident) (A B : List Data) (d : Data) (v : Bytes)
    (h : t.dataOf i = A ++ d :: B) (hA : ∀ x ∈ A, x.bytes? = none) (hd : d.bytes? = some v) (n m : Nat) :
    ∃ f : Bytes → Data, (∀ w, (f w).bytes? = some w ∧ typeCode (f w) = typeCode d) ∧
    (t.setPair i n m).dataOf i = A ++ f ((filled v 6).take 2 ++ two n ++ two m ++ v.drop 6) :: B ∧
    (t.setNumber i n).dataOf i = A ++ f ((filled v 4).take 2 ++ two n ++ v.drop 4) :: B ∧
    (t.setTotal i m).dataOf i = A ++ f ((filled v 6).take 4 ++ two m ++ v.drop 6) :: B := by
  have hdrop : ∀ k, (filled v k).drop k = v.drop k := by
    intro k
    rw [filled, List.drop_append]
    have : (List.replicate (k - v.length) (0 : UInt8)).drop (k - v.length) = [] := by simp
    rw [this, List.append_nil]
  have hp : tupSetNumber (tupSetTotal v m) n = (filled v 6).take 2 ++ two n ++ two m ++ v.drop 6 := by
    have hl : 6 ≤ (filled v 6).length := by simp [filled]; omega
    have hw : 4 ≤ (tupSetTotal v m).length := by rw [setTotal_bytes]; simp; omega
    rw [setNumber_bytes]
    have hf : filled (tupSetTotal v m) 4 = tupSetTotal v m := by
      rw [filled, Nat.sub_eq_zero_of_le hw]; simp
    rw [hf, setTotal_bytes, hdrop]
    have ht : ((filled v 6).take 4).length = 4 := by simp; omega
    have h1 : ((filled v 6).take 4 ++ two m ++ v.drop 6).take 2 = (filled v 6).take 2 := by
      rw [List.append_assoc, List.take_append_of_le_length (by omega), List.take_take]; rfl
    have h2 : ((filled v 6).take 4 ++ two m ++ v.drop 6).drop 4 = two m ++ v.drop 6 := by
      rw [List.append_assoc, List.drop_left' ht]
    rw [h1, h2]; simp
  have hn : tupSetNumber v n = (filled v 4).take 2 ++ two n ++ v.drop 4 := by rw [setNumber_bytes, hdrop]
  have hm : tupSetTotal v m = (filled v 6).take 4 ++ two m ++ v.drop 6 := by rw [setTotal_bytes, hdrop]
  rw [setPair_eq, setNumber_eq, setTotal_eq, firstBytes_split _ _ h hA hd, firstBytes_split _ _ h hA hd,
    firstBytes_split _ _ h hA hd]
  cases d with
  | reserved w =>
    cases hd
    exact ⟨.reserved, fun _ => ⟨rfl, rfl⟩, by simp only [Data.modBytes, hp], by simp only [Data.modBytes, hn],
      by simp only [Data.modBytes, hm]⟩
  | beSigned w =>
    cases hd
    exact ⟨.beSigned, fun _ => ⟨rfl, rfl⟩, by simp only [Data.modBytes, hp], by simp only [Data.modBytes, hn],
      by simp only [Data.modBytes, hm]⟩
  | _ => simp [Data.bytes?] at hd

/-- **C82.** A stored item is in the item list that is written or dumped, exactly as specified. -/
theorem C82_written (e : Env) (t : Tag) (h : ∀ a ∈ t.atoms, Storable a) (fc : Fourcc) (vs : List (Nat × Bytes))
    (hs : Stores t fc vs) (hl : (itemAtom fc vs).length < 2^32) :
    (∃ P S, (ilstBox t.atoms).body = P ++ itemAtom fc vs ++ S) ∧
    (∃ P S, (dumpTag e t).1 = P ++ itemAtom fc vs ++ S) := by
  obtain ⟨A, a, B, ht, _, _, hw⟩ := hs
  have hb : ∃ P S, (ilstBox t.atoms).body = P ++ itemAtom fc vs ++ S := by
    refine ⟨serL Entry.box (A.map entryOf), serL Entry.box (B.map entryOf), ?_⟩
    show serL Entry.box (t.atoms.map entryOf) = _
    rw [ht, List.map_append, List.map_cons, serL_append, serL_cons, (hw hl).1]
    simp
  refine ⟨hb, ?_⟩
  obtain ⟨P, S, hb⟩ := hb
  obtain ⟨ftyp, moov, udta, mt, hdlr, ilst, h1, h2, h3, h4, _, _, _, _, _, _, h7, _⟩ := C28_layout t.atoms
  have hb' : ilst.body = P ++ itemAtom fc vs ++ S := by
    rw [h7, ← hb]
    exact (serL_map _ _ _).symm
  rw [C28_dump e t h]
  refine ⟨ftyp.ser ++ moov.head ++ udta.head ++ mt.head ++ [0, 0, 0, 0] ++ hdlr.ser ++ ilst.head ++ P, S, ?_⟩
  rw [h1, Box.ser, Box.ser.eq_1 moov, h2, Box.ser.eq_1 udta, h3, Box.ser.eq_1 mt, h4, Box.ser.eq_1 ilst, hb']
  simp [Box.ser]

example : Stores (sampleTag.setPair discI 3 258) (cc 'd' 'i' 's' 'k') [(0, [0, 0, 0, 3, 1, 2])] ∧
    itemAtom (cc 'd' 'i' 's' 'k') [(0, [0, 0, 0, 3, 1, 2])]
      = [0, 0, 0, 30, 100, 105, 115, 107, 0, 0, 0, 22, 100, 97, 116, 97, 0, 0, 0, 0, 0, 0, 0, 0, 0, 0, 0, 3, 1, 2] ∧
    Stores (sampleTag.setMediaType .booklet) (cc 's' 't' 'i' 'k') [(0, [11])] := by
  refine ⟨(C82_pair sampleTag (by decide) discI _ (.inr ⟨rfl, rfl⟩) (by decide) 3 258).1, by decide, ?_⟩
  obtain ⟨c, hc, hs⟩ := (C82_codes sampleTag (by decide)).1 .booklet
  have : c = 11 := by revert hc; simp [mediaCodes]
  rw [← this]; exact hs

end Mp4.Props
