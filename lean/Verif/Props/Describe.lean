import Verif.Proof.SaysSave
import Verif.Proof.SaysDump
import Verif.Proof.ErrorText
import Verif.Props.Write
/-
C83-C86: what the descriptions of errors say.
-/
namespace Mp4.Props
open Mp4 Spec

/-! ### Reading -/

/-- A file whose item `©nam` has a `data` atom with type code 9. -/
def oddTypeFile : Bytes :=
  be32 12 ++ [0x66, 0x74, 0x79, 0x70] ++ [0x4d, 0x34, 0x41, 0x20] ++ be32 60 ++ [0x6d, 0x6f, 0x6f, 0x76] ++
  be32 52 ++ [0x75, 0x64, 0x74, 0x61] ++ be32 44 ++ [0x6d, 0x65, 0x74, 0x61] ++ [0, 0, 0, 0] ++ be32 32 ++ [0x69, 0x6c, 0x73, 0x74] ++
  be32 24 ++ [0xa9, 0x6e, 0x61, 0x6d] ++ be32 16 ++ [0x64, 0x61, 0x74, 0x61] ++ be32 9 ++ [0, 0, 0, 0]

/-- **C83.** The descriptions are added to the errors of `Tag::read_from`; nothing else changes. -/
theorem C83_refines (e : Env) (F : Bytes) (pos : Nat) : (readTagD e F pos).forget = readTagP e F pos := by
  rw [← readTagD_forget]; rfl

/-- **C83.** The description of an error is one of the catalogue `ReadFault`: it consists of the identifiers of the atoms, from the
outermost one on, and the text that belongs to the kind of the error. Each atom it names is in the file, and so is the item without
value, the size, the version or the type code it complains about. -/
theorem C83_explains (e : Env) (F : Bytes) (pos : Nat) (k : ErrKind) (d : Str) (h : readTagD e F pos = .err k d) : Explains F k d :=
  says_readTag e pos k d h

/-- **C83.** The catalogue is exact: each of its errors is the result of reading some file. -/
theorem C83_occurs (e : Env) (hp : e.maxPos = 2^63 - 1) (hf : 0 < e.fuel) (path : List Fourcc) (k : ErrKind) (text : Str)
    (h : ReadFault path k text) : ∃ F, readTagD e F 0 = .err k (whileParsing path text) :=
  fault_occurs ⟨hf, hp⟩ h

/-- The error says where the type code is. -/
example : readTagD env0 oddTypeFile 0 = .err (.unknownDataType 9)
    "Error parsing moov: Error parsing udta: Error parsing meta: Error parsing ilst: Unknown datatype code".toList := by
  decide +kernel

example : ReadFault ilstPath (.unknownDataType 9) "Unknown datatype code".toList := .dataType 9 (by decide) (by decide)

example : Named oddTypeFile (cc 'i' 'l' 's' 't') := ⟨40, 32, by decide, by decide +kernel⟩

/-! ### Writing -/

/-- **C84.** The descriptions are added to the errors of writing with failing calls (`writeTagF`); nothing else changes. -/
theorem C84_refines (fl : Faults) (hfl : fl.search = false) (e : Env) (F : Bytes) (pos : Nat) (atoms : List AtomData) :
    (writeTagD fl e F pos atoms).1.forget = (writeTagF fl e F pos atoms).1
    ∧ (writeTagD fl e F pos atoms).2 = (writeTagF fl e F pos atoms).2 :=
  writeTagD_forget fl hfl e F pos atoms

/-- **C84.** The description of an error of writing is one of: an error of the search, with the path of the atom; an error of a
chunk offset table, with the name of the table alone; an error of writing the new item list; nothing, for another failed call. Nothing
outside the new item list is named by an error of writing: what is in front of it stays in the buffer until the item list is written. -/
theorem C84_explains (fl : Faults) (e : Env) (hc : 128 ≤ e.cap) (F : Bytes) (pos : Nat) (atoms : List AtomData) (k : ErrKind) (d : Str)
    (s : FSt) (h : writeTagD fl e F pos atoms = (.err k d, s)) : SaveExplains F k d :=
  says_writeTag hc h

/-- **C84.** Each error of the search is the result of writing to some file, whatever is written. -/
theorem C84_occurs_search (e : Env) (hp : e.maxPos = 2^63 - 1) (hf : 0 < e.fuel) (path : List Fourcc) (k : ErrKind) (text : Str)
    (h : FindFault path k text) (fl : Faults) (atoms : List AtomData) :
    ∃ F, (writeTagD fl e F 0 atoms).1 = .err k (whileParsing path text) :=
  search_occurs ⟨hf, hp⟩ h fl atoms

/-- **C84.** Each error of a chunk offset table is the result of writing to some file, with a table that is malformed or calls that
fail. -/
theorem C84_occurs_table (e : Env) (hp : e.maxPos = 2^63 - 1) (hf : 100 < e.fuel) (f : Fourcc) (k : ErrKind) (text : Str)
    (h : TableFault f k text) : ∃ fl F, (writeTagD fl e F 0 []).1 = .err k (whileParsing [f] text) :=
  table_occurs ⟨by omega, hp⟩ hf h

/-- **C84.** For every file, if the item list does not fit into the buffer, there is a call whose failure is reported as an error of
writing the item list, in the `meta` and the `udta` that are written along with it. -/
theorem C84_occurs_write (e : Env) (X : Bytes) (f : File) (atoms : List AtomData) (h : Writable e X f atoms) (hc : 128 ≤ e.cap)
    (hl : e.cap < (ilstBox atoms).ser.length) :
    ∃ n s, writeTagD (failsFrom n) e (X ++ f.ser) X.length atoms = (.err .io (whileWriting f.newItemPath []), s) := by
  obtain ⟨s, h1, -⟩ := h.run
  exact write_occurs h.fit h.wf h.store (by rw [h1]) hc hl

/-- A damaged table. -/
example : (writeTagD Faults.none env0 (tableFile (cc 's' 't' 'c' 'o') [0, 0, 0, 0, 0, 0, 0, 7]).ser 0 []).1 = .err .parsing
    "Error parsing stco: Sample table chunk offset (stco) offset table size doesn't match atom length".toList := by decide +kernel

/-- With a small buffer. -/
def envSmall : Env := { env0 with cap := 128 }

/-- An item that does not fit into it. -/
def longItem : List AtomData := [⟨.fourcc (cc 'd' 'e' 's' 'c'), [.utf8 (List.replicate 100 'a')]⟩]

/-- A file without user data, with empty user data, with metadata. -/
def emptyFile (moov : Spec.Moov) : File := ⟨false, "M4A ".toList, [], false, moov, []⟩

example : (writeTagD (failsFrom 2) envSmall (emptyFile []).ser 0 longItem).1 = .err .io
    "Error writing udta: Error writing meta: Error writing ilst: ".toList := by decide +kernel

example : (writeTagD (failsFrom 3) envSmall (emptyFile [.udta false []]).ser 0 longItem).1 = .err .io
    "Error writing meta: Error writing ilst: ".toList := by decide +kernel

example : (writeTagD (failsFrom 4) envSmall (emptyFile [.udta false [.node false ⟨[0, 0, 0], []⟩]]).ser 0 longItem).1 = .err .io
    "Error writing ilst: ".toList := by decide +kernel

/-- Other calls: no description. -/
example : (writeTagD (failsFrom 1) envSmall (emptyFile []).ser 0 longItem).1 = .err .io [] := by decide +kernel

/-! ### Dumping -/

/-- **C85.** Dumping to a writer with room for `room` bytes: they are the first bytes of the file, and if there are more, the error
names the atoms the first byte that did not fit belongs to. -/
theorem C85_dump_room (room : Nat) (e : Env) (t : Tag) (h : ∀ a ∈ t.atoms, Storable a) :
    (dumpTagD room e t).1 = (dumpFile t.atoms).ser.take room ∧
    (dumpTagD room e t).2 = match (owned (dumpParts t.atoms))[room]? with
      | some x => .err .io (whileWriting x.1 [])
      | none => .ok () := by
  obtain ⟨cs, h1, h2⟩ := dump_parts h e
  rw [dumpTagD, h1, fillRoom_eq, h2]
  refine ⟨?_, ?_⟩
  · rw [← dumpParts_flatten, ← List.map_take, List.map_map, List.map_take]
    rfl
  · dsimp only
    rw [List.getElem?_map]
    cases (owned (dumpParts t.atoms))[room]? <;> rfl

/-- **C85.** Dumping succeeds if and only if the whole file fits. -/
theorem C85_dump_fits (room : Nat) (e : Env) (t : Tag) (h : ∀ a ∈ t.atoms, Storable a) :
    (dumpTagD room e t).2 = .ok () ↔ (dumpFile t.atoms).ser.length ≤ room := by
  rw [(C85_dump_room room e t h).2, ← dumpParts_flatten, List.length_map]
  cases hx : (owned (dumpParts t.atoms))[room]? with
  | none => exact ⟨fun _ => List.getElem?_eq_none_iff.mp hx, fun _ => rfl⟩
  | some x =>
    have := (List.getElem?_eq_some_iff.mp hx).1
    exact ⟨fun h => (nomatch h), fun h => by omega⟩

/-- The parts that are dumped are the file. -/
theorem C85_dump_parts (atoms : List AtomData) : ((dumpParts atoms).map (·.2)).flatten = (dumpFile atoms).ser := by
  rw [← dumpParts_flatten, owned, List.map_flatMap]
  simp only [List.map_map]
  induction dumpParts atoms with
  | nil => rfl
  | cons p ps ih => simp [ih, Function.comp_def]

/-- Room for the file type and the head of the movie atom; room for a part of `hdlr`; room for everything. -/
example : dumpTagD 32 env0 ⟨[], {}, longItem⟩ = ((dumpFile longItem).ser.take 32, .err .io "Error writing moov: Error writing udta: ".toList) ∧
    dumpTagD 57 env0 ⟨[], {}, longItem⟩ = ((dumpFile longItem).ser.take 57,
      .err .io "Error writing moov: Error writing udta: Error writing meta: Error writing hdlr: ".toList) ∧
    (dumpTagD 300 env0 ⟨[], {}, longItem⟩).2 = .ok () := by decide +kernel

/-! ### The printed text -/

/-- **C86.** The printed text of an error tells its kind, with the identifier, version or code in it. -/
theorem C86_kind (x x' : Str) (k k' : ErrKind) (d d' : Str) (h : errorText x k d = errorText x' k' d') : k = k' :=
  errorText_kind h

/-- **C86.** If the errors of std they contain (if any) are printed alike, it also tells the description. -/
theorem C86_description (x : Str) (k k' : ErrKind) (d d' : Str) (h : errorText x k d = errorText x k' d') : d = d' :=
  errorText_desc h

/-- **C86.** The text begins with the name of the kind and ends with the description, if there is one, behind a colon. -/
theorem C86_form (x : Str) (k : ErrKind) (d : Str) :
    (kindName k).toList <+: errorText x k d ∧ (d ≠ [] → ": ".toList ++ d <:+ errorText x k d) := by
  have hn : (kindName k).toList <+: k.debug x := by
    have app : ∀ {a b : Str} (c d : Str), a <+: b → a <+: b ++ c ++ d := fun c d h =>
      h.trans ((List.prefix_append _ _).trans (List.prefix_append _ _))
    cases k with
    | atomNotFound f => exact app _ _ (b := "AtomNotFound(Fourcc(".toList) (by dsimp only [kindName]; decide +kernel)
    | descriptorNotFound t => exact app _ _ (b := "DescriptorNotFound(".toList) (by dsimp only [kindName]; decide +kernel)
    | io => exact app _ _ (b := "Io(".toList) (by dsimp only [kindName]; decide +kernel)
    | noTag => exact List.prefix_refl _
    | parsing => exact List.prefix_refl _
    | unknownChannelConfig n => exact app _ _ (b := "UnknownChannelConfig(".toList) (by dsimp only [kindName]; decide +kernel)
    | unknownDataType n => exact app _ _ (b := "UnknownDataType(".toList) (by dsimp only [kindName]; decide +kernel)
    | unknownMediaType n => exact app _ _ (b := "UnknownMediaType(".toList) (by dsimp only [kindName]; decide +kernel)
    | unknownVersion n => exact app _ _ (b := "UnknownVersion(".toList) (by dsimp only [kindName]; decide +kernel)
    | utf8StringDecoding => exact app _ _ (b := "Utf8StringDecoding(".toList) (by dsimp only [kindName]; decide +kernel)
    | utf16StringDecoding => exact app _ _ (b := "Utf16StringDecoding(".toList) (by dsimp only [kindName]; decide +kernel)
    | unwritableData => exact List.prefix_refl _
  rw [errorText]
  split
  · rename_i h
    exact ⟨hn, fun hd => absurd (List.isEmpty_iff.mp h) hd⟩
  · refine ⟨?_, fun _ => ⟨k.debug x, by rw [List.append_assoc]⟩⟩
    rw [List.append_assoc]
    exact hn.trans (List.prefix_append _ _)

/-- **C86.** The description of an error of reading tells the atoms it occurred in and what went wrong there. -/
theorem C86_place (p p' : List Fourcc) (k k' : ErrKind) (t t' : Str) (h : ReadFault p k t) (h' : ReadFault p' k' t')
    (ht : whileParsing p t = whileParsing p' t') : p = p' ∧ t = t' :=
  inAtoms_inj (readFault_innermost h) (readFault_innermost h') ht

/-- **C86.** So do those of writing. -/
theorem C86_place_write (p p' : List Fourcc) (k k' : ErrKind) (t t' : Str)
    (h : FindFault p k t ∨ ∃ f, p = [f] ∧ TableFault f k t) (h' : FindFault p' k' t' ∨ ∃ f, p' = [f] ∧ TableFault f k' t')
    (ht : whileParsing p t = whileParsing p' t') : p = p' ∧ t = t' := by
  have inner : ∀ {p k t}, (FindFault p k t ∨ ∃ f, p = [f] ∧ TableFault f k t) → Innermost "parsing".toList t := fun h =>
    h.elim findFault_innermost fun ⟨_, _, h⟩ => tableFault_innermost h
  exact inAtoms_inj (inner h) (inner h') ht

/-- **C86.** Errors of reading that do not come from the reader are always described. -/
theorem C86_described (e : Env) (F : Bytes) (pos : Nat) (k : ErrKind) (d : Str) (h : readTagD e F pos = .err k d) (hk : k ≠ .io) :
    d ≠ [] := by
  obtain ⟨path, text, h1, rfl, -⟩ := says_readTag e pos k d h
  exact whileParsing_ne (readFault_text h1 hk)

/-- **C86.** So are those of writing. -/
theorem C86_described_write (fl : Faults) (e : Env) (hc : 128 ≤ e.cap) (F : Bytes) (pos : Nat) (atoms : List AtomData) (k : ErrKind)
    (d : Str) (s : FSt) (h : writeTagD fl e F pos atoms = (.err k d, s)) (hk : k ≠ .io) : d ≠ [] := by
  cases says_writeTag hc h with
  | search path text h hd => rw [hd]; exact whileParsing_ne (findFault_text h hk)
  | table f text h hd => rw [hd]; exact whileParsing_ne (tableFault_text h hk)
  | io h => exact absurd h hk
  | write _ _ h => exact absurd h hk

example : errorText [] (.unknownDataType 9) (whileParsing ilstPath "Unknown datatype code".toList) =
    "UnknownDataType(9): Error parsing moov: Error parsing udta: Error parsing meta: Error parsing ilst: Unknown datatype code".toList := by
  decide +kernel

/-- What std prints for its errors is part of the text, so equal texts do not tell the description if it is not fixed. -/
example : errorText "a): b".toList .io [] = errorText "a".toList .io "b)".toList := by decide +kernel

end Mp4.Props
