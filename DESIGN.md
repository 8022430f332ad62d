# Formal model of mp4ameta in Lean 4

The code under /repo (crate `mp4ameta`, a reader/writer for iTunes style MPEG-4 metadata) is modelled
function by function in `lean/Verif/Model/`. Independent specifications live in `lean/Verif/Spec/`,
helper lemmas in `lean/Verif/Proof/`, and the property theorems (one file per group of properties, with
non-vacuity examples and refutation witnesses) in `lean/Verif/Props/`.

## Trusted base

* Lean 4.33.0's kernel. Theorems depend at most on `propext`, `Classical.choice`, `Quot.sound`
  (`#print axioms` of every theorem listed in MANIFEST.json). No `sorry`, no own axioms, no
  `native_decide`, no `bv_decide`.
* The reading of the Rust source: nothing is extracted or executed, every model definition cites the
  file and lines it models.
* The specification modules (`Spec/`) and the statements in `Props/`.

## What is modelled

* Byte streams: `Read + Seek` over a finite byte list with a position. `read_exact` fails with an Io
  error at the end of data. `seek` fails below 0 or above an arbitrary bound `maxPos`. Positions beyond
  the end are legal, as in std.
* Integer arithmetic: `u64`, `u32`, `i64` are numbers with explicit overflow behaviour. The flag
  `Env.checked` selects the profile (debug: overflow panics; release: wrap-around). Theorems quantify
  over both profiles unless stated. `usize` is 64 bits, except in Model/Narrow.lean, where it is 32 bits (C98).
* Outcomes: value, error kind, panic, or out-of-fuel. Loops take the fuel `Env.fuel`. Termination
  theorems say that enough fuel exists; all positive theorems hold for every sufficiently large fuel.
* Writing to a file: std's `BufWriter` as a state machine (capacity arbitrary), the file cursor shared
  by reader and writer (left anywhere by the reader), the trace of write and set_len calls (for crash
  properties), the flush on drop. In Model/Short.lean every single `write` and `ftruncate` call may be short, interrupted or fail,
  with std's loops around them (C99).
* Text: strings are lists of Unicode scalar values; UTF-8 and UTF-16 codecs are modelled explicitly.
* The printed text of tags and values (Model/Display.lean); decimal formatting is std's, trusted as modelled.
* The descriptions of errors and their printed text (Model/Describe.lean), for reading, writing with failing calls and dumping to
  a writer with limited room. They are added on top of the model without them; C83 and C84 prove that nothing else changes.
  Failing calls of the reader, while reading a tag and during the search, are in Model/DescribeReader.lean: the descriptions on top of
  the arbitrary reader of Model/Reader.lean (C92).
* The whole public tag API: the generic accessors, the generated accessors (proc macros), genre, track
  and disc tuples, artwork, media type, advisory rating, audio info.
* std's `BufReader` (Model/Buffered.lean): capacity, buffer, cursor of the file inside, and which calls reach the file.
* Identifier types of the caller: any comparison and any conversion, without effects (Model/UserIdent.lean).
* Predicates and iterators of the caller that have effects or panic (Model/Caller.lean), with what std's `Vec::retain`,
  `Vec::extend` and `collect` leave behind after a panic.

## Checks of the model against the code's own tests

Two modules evaluate the model (no proofs; the build compiles but does not run them; run in /verif/lean):

* `echo 'import Verif.Check.Conformance #eval Mp4.Conformance.run "/repo/files"' | lake env lean --stdin`: the assertions of tests/test.rs, of the unit tests in
  src/atom/data.rs and of the examples in the documentation of src/tag/mod.rs, on the sample files of the repository. Counted as
  the script groups them there are 633; all hold in the model.
* `echo 'import Verif.Check.Samples #eval Mp4.Samples.run "/repo/files"' | lake env lean --stdin`: the four sample files are well-formed as Spec/Layout.lean and
  Spec/Update.lean require, so the theorems about well-formed files apply to files written by other programs, with up to 979 chunk
  offsets and media in front of or behind the movie atom; saving does to them what `File.put` says.

## What is not modelled

* The `Debug` escapes of string characters and the printed text of std's errors (parameters), and in which pieces std passes a text
  on to a formatter (a parameter of C103). Formatters that panic.
* `Hdlr::parse_atom` (src/atom/hdlr.rs:24-28), which is never called.
* Concurrent modification of the file. In `Model/Fault.lean` (faults while writing) all `read` calls of one table or of the
  search count as one call; C72 shows that this is no restriction. std's default implementations of `read_exact` and
  `read_to_end` are modelled for arbitrary readers (`Model/Reader.lean`), and the ones of `BufReader` (`Model/Buffered.lean`); other
  implementations that override them are assumed to behave alike.
* Memory exhaustion (a `Vec` of 2^63 bytes or more is a panic, anything smaller succeeds). The requests for buffers whose size comes
  from the input are recorded (C88); not those of std (growing vectors, UTF-16 units, strings).
* `unsafe`, performance apart from the counts of C87, C88 and C94. Of the file system: names, contents, permissions and creation of files (Model/Path.lean), nothing else;
  in particular no other process that changes files at the same time.
* Lengths of in-memory vectors and strings are mathematical; their sums are assumed below 2^64 (true on
  every 64 bit machine).

## Findings: where the code does not have the property

Every entry is proved in Lean with a concrete witness (theorem in parentheses); the part that does hold is kept as
`_partial`.

* **The error of a reader is not the `source` of the error** (C108). Only the deprecated `cause` is implemented
  (src/error.rs:56-63), so `source` is always `None` (C108_refuted); `cause` in turn leaves out the errors of decoding a
  text (C108_text).
* **UTF-16 text is cut in half** (C26, C27, C30). `Data::len` (src/atom/data.rs:136) counts code units but
  `write_raw` writes two bytes per unit, so the stored size of the `data` atom and of its parents is too small.
* **Saving a UTF-16 text can make the file unsavable** (C91): the surplus bytes are overwritten by the data that is
  moved behind the item list, but only as far as there is any. What remains behind the last atom is taken for an atom
  by `find_top`, so a title "ab" leaves two bytes and every further `write_to` fails (C91_refuted). Reading and saving
  a tag unchanged halves its texts each time (C91_erodes).
* **An entry without values makes the dump or file unreadable** (C30_refuted_*): `set_all_data(ident, [])` creates
  an entry without `data`, which `AtomData::parse` rejects with `AtomNotFound(data)`.
  A panic in the caller's iterator leaves such an entry as well (C95): the old values are removed before the first one is yielded.
* **32-bit builds without overflow checks damage files with a wrong item list length** (C98_refuted_write): if the item list claims to end
  behind the end of the file, the number of bytes to be moved wraps around. With 64 bits, requesting a buffer of that size panics before
  anything is written. With 32 bits only its low half is requested, the save continues, writes wrong lengths of `moov`, `udta` and `meta`
  and fails when the file is resized.
* **32-bit builds drop the upper half of claimed lengths** (C98_refuted, C98_panics): a text or value that claims 2^32 + 4 bytes is read
  as 4 bytes; one that claims 2^31 bytes panics (capacity overflow) instead of being an error, even in a file of 12 bytes.
* **The trait `Ident` can be implemented so that an identifier occurs twice** (C97_refuted): `set_data` with a value that does not equal
  what it converts into adds an entry every time; `data_of` with an identifier of the library returns the oldest value.
* **An entry called `free` is written but never read back** (C30_refuted_*): `Ilst::parse` skips `free` atoms.
* **Removing track numbers leaves an all-zero entry** (C20): `total() != Some(0)` is always true because `total`
  maps 0 to `None` (src/tag/tuple.rs:73-88). With values of three bytes a number is created (C19, C20).
* **`genre()` and `genres()` disagree**, `take_genre` does not remove the standard genre (C22, C23).
* **The table of standard genres** contains "Top 41", "Hip,-Hop", "Lo,-Fi" (C56).
* **Reading does not terminate in release builds** on an atom with a 64 bit size of 0 (C38): `content_len`
  underflows, the seek goes back to the head, `parsed_bytes` does not advance.
* **48 bytes keep every build busy for more than 2^57 iterations** (C38_slow): a `moov` claiming 2^62 bytes with a
  `trak` that contains an atom of 2^64 - 8 bytes, whose content is "skipped" by seeking backwards.
* **Reading can take quadratic time in release builds** (C87_quadratic, C87_refuted): `Mp4a::parse` does not stop at the
  end of its atom. A descriptor that claims more makes it stride over the rest of the file; then `seek_to_end` goes
  back (the subtraction wraps), and the next `mp4a` does the same. A file of 64 + 61 n + 2 m bytes takes at least
  3 n m calls to the reader: at 100 MB, more than 2^40. With overflow checks the first `mp4a` panics.
* **A few bytes of input can request any amount of memory** (C88_claimed, C88_refuted): `read_u8_vec` and `read_utf16` request a
  buffer for the size claimed by the atom before they read anything. A `ftyp` head of 16 bytes claiming 2^62 bytes requests that
  many; with 8 bytes it is almost 4 GiB. std aborts the process if the request cannot be met, which no caller can handle. The same
  holds for `with_capacity` of a chunk offset table (up to 2^35 bytes). Successful reads never request more than the input has.
* **Bytes behind the movie atom can determine the tag** (C80, C89): through sizes that do not fit (every build), or because
  `Mvhd::parse` reads beyond the end of a short atom and then seeks back (C89_unchecked, release builds).
* **Panics on malformed input** (C39): timescale 0 (division), a huge `ftyp` (capacity overflow), a `data` atom
  shorter than 8 bytes (capacity overflow or subtraction overflow), large durations (multiplication).
* **Writing to a truncated file panics** (C62): if the file ends within its item list, the search seeks beyond the end
  without an error; `old_file_len - moved_data_start` then overflows, or the capacity does. With overflow checks a
  chunk offset of 2^63 panics in the middle of the write.
* **Chunk offsets** (C45): the data behind the metadata is read *before* the chunk offset tables are adjusted and
  written back afterwards, so tables of tracks behind `udta` lose their adjustment (C45_refuted_order); if the last
  `mdat` is behind `moov`, offsets into an `mdat` in front of it are shifted as well (C45_refuted_sides); `stco`
  entries wrap at 2^32 (C45_refuted_wrap). Sizes and offsets are truncated silently (C52).
* **A failed write can damage the file** (C49): a chunk offset table with an unknown version (or a wrong size) is
  noticed after tables of earlier tracks have been rewritten; nothing is rolled back. With overflow checks, a value of
  2^32 - 16 bytes or more panics after the file has been extended for it, and a `udta` claiming 2^63 bytes panics
  after the size of `moov` has been changed.
* **The cursor stays at the end after `write_to`** (C55): any further `read_from`/`write_to` on the same handle
  fails with an I/O error.
* **A crash loses media data stored behind `moov`** (C58): the file is cut and the tail rewritten from memory. At most as many bytes
  are lost as the file grows or shrinks by (`C58_window_partial`), and so many may be (`C58_lost`).
* **An interrupted write need not leave the old or the new tag** (C90): after the file was cut no tag can be read
  (C90_refuted); if the file keeps its length but the items do not fit into the buffer, the tag can be a mixture
  (C90_mixed). If they fit, the file is the old or the new one (C90_atomic_partial).
* **Repeating a failed save can damage the file for good** (C100): a save that fails after a chunk offset table was
  adjusted leaves the table adjusted; the second attempt succeeds and adjusts it again, so that chunks are looked for
  at wrong places (C100_twice). After the size of `moov` was changed, the second attempt fails (C100_stuck). Saves that
  keep the length of the file can be repeated as often as needed (C100_partial).
* **The printed text of a tag** (C63): values are printed without escaping, so a title with a line break can imitate
  any other field; a genre is missing if an unknown standard genre is in front of it. Bitrates are divided by 1024 and
  called kbps, so 128000 bit/s is printed as `125kbps` (C64). `----:a:b:c` is the text of two identifiers (C65).
* **Bytes in front of moov are changed** (C73_refuted): a 64 bit size of 2^63 or more inside a track makes skipping go
  backwards, so the search goes on in front of moov and a byte string that looks like a chunk offset table, inside an atom that
  is of no concern, is adjusted.
* **A small file fills the memory in release builds** (C71_amplifies): a 64 bit size of an atom within an item makes
  skipping go backwards, so the same value is read again and again; a file of 92 + N + V bytes yields 9 + N copies of
  a value of V bytes. With overflow checks the same file panics.
* **Writing to a file with several movie atoms has no effect on reading** (C76_unread): `read_from` uses the *first* `moov`,
  `write_to` the *last* one, so after a successful write the old tag is read. Well-formed files have one.
* **Damage in moov spreads to the media data** (C79_refuted): sizes of inner atoms are not compared with the sizes of their
  containers. If `ilst` claims 8 bytes too many, writing deletes the head of the following `mdat` and reports success. If a `free`
  atom in `udta` does, a file that could be read cannot be read after a successful write (C79_unreadable).
* **Bytes behind the movie atom are read as items** (C80_refuted, C80_outside): for the same reason. If `moov` is well-formed but
  for a size that is too large, the media data behind it shows up as an item called `mdat`.
* **Writing changes the duration** (C81_duration): the movie header is read without regard to its size. If it is too short, the duration
  comes from the head of the next atom; without overflow checks this is not noticed, and if this is `udta`, writing changes its size
  and thereby the duration. With overflow checks reading panics.

Crashes are modelled as the process stopping between or within system calls, which are applied in order. The page
cache, reordering by the file system and torn sectors are not modelled.

## Plan per property

| id | modelled | proof |
|---|---|---|
| C01 | Tag operations as functions on the entry list, `TagOp` histories, `Ilst::parse` merge | invariant by induction over histories; reader establishes it |
| C02–C06, C08, C09 | same | direct, against `data_of` seen as a function of the identifier |
| C07 | same | refinement to an ordered association list of value lists |
| C10 | Data kinds | case analysis |
| C11–C14, C16–C18 | accessor families parameterised by identifier | from C02–C05 plus big-endian codec lemmas |
| C15 | name → identifier table of the macro invocations | finite table compared with the documented strings (whole table), non-interference for all tags |
| C19, C20 | `be_int!`, `set_be_int!`, tuple.rs | list lemmas for all byte vectors; the "no entry remains" part refuted by a witness |
| C21–C23 | genre.rs | list lemmas; `genre() = first of genres()` and `take_genre` clauses refuted by witnesses, partial theorems kept |
| C24, C25 | UTF-8/UTF-16 codecs | round trip and uniqueness, induction on strings/bytes |
| C26, C27, C30 | Data::len, dump | refuted by witnesses; partial theorems for UTF-8 and binary values; C30_iff says exactly which tags survive being dumped, C26_half and C26_torn what is left of a UTF-16 text |
| C28, C29 | dump_to | equality with the serialisation of a specification tree; read theorem |
| C31–C36, C40 | read_from | `read (ser t) = tagSpec t` for every well-formed tree, corollaries |
| C37 | read_from/write_to error exits | case theorems for arbitrary streams |
| C38 | loops with fuel | checked profile: bound on iterations; release: witness that never terminates; every profile, any bytes with sane 64 bit sizes: at most as many iterations as bytes (position progress, Proof/Sane.lean) |
| C39 | panic outcomes | witnesses; partial: well-formed trees never panic; any bytes without the listed causes (Spec/Sane.lean) never panic |
| C41–C48, C53, C54 | write_to | `write (ser t) = ser (update t)`, corollaries |
| C45 | chunk tables | refuted for several layouts by witnesses; partial theorem for the layouts that work |
| C49 | failed writes | errors of the search phase leave the file untouched for every byte string; late table errors change only table entries, for every byte string; panics included, with overflow checks under size conditions that are shown to be needed (Spec/LateChecked.lean); witnesses |
| C50 | trace of file operations | every prefix of the trace, with the last write possibly partial |
| C51 | BufWriter capacity and cursor parameters | the result theorem is independent of them; for arbitrary bytes two runs are kept together by what is in the file once the buffers are written out (`Pair`, Proof/AnyBuf). There the capacity has to exceed 8 bytes (it is 8192): `set_len` bypasses the buffer, which holds the last size field then |
| C52 | `as u32` casts | refuted by witness; partial theorem under fit conditions |
| C55 | cursor after writing | refuted for all files; partial theorem for rewound handles |
| C56 | genre table | whole table compared with a separate list |
| C57 | reading prefixes | simulation between a stream and its prefix, all parsers |
| C58 | trace of file operations | as C50; `C58_boundary_partial`, `C58_window_partial`: also with failing calls, for all files; `C58_lost`: not improvable |
| C59, C60 | writing with an arbitrary schedule of failing calls | simulation with the error-free writer; Hoare style invariant (no operation in front of `moov`) for every exit |
| C61 | dump with failing writer | induction over the calls |
| C62 | panic outcomes of write_to | witnesses; partial: total-correctness rules for the search, the plan and the writer (Proof/NoPanic.lean) for any bytes |
| C63–C65 | `Display for Tag` and the `format_*` functions | a reader for the text (Spec/Display.lean) finds what the accessors return; the text as a list of fields with different names (Proof/Display.lean) |
| C66, C67 | the `_path` functions; programs of loads, edits, saves, dumps | file systems with links (Model/Path.lean); a map from files to tags as specification (Spec/Session.lean); a relation kept by all steps, from C28, C41, C48 (Props/Path.lean) |
| C68 | `idents_match`, `==` | case analysis on the forms; observability from C02 |
| C69 | predicates, getters and conversions of `Data` and `Img` | stated with the type codes of the file format (`ValueEnc`), case analysis |
| C70 | all parsers on arbitrary bytes | partial correctness rules (`Par`), the tag related to occurrences of atoms in the input (Spec/Provenance.lean) |
| C71 | size of the items read from arbitrary bytes | total correctness rules with the size of the items as measure (Proof/NoGrow.lean); witness family (Proof/Amplify.lean); copies from C28, C29, C41 |
| C72 | all reading functions with arbitrary readers (Model/Reader.lean) | simulation (`RSim`) between the two interpretations of every function, loops of std by induction |
| C73 | write to arbitrary bytes, with faults and crashes, bytes in front of moov | positions found by the search are behind moov (`FindsGe`), then the invariant of C60 |
| C74 | write to a file whose end is missing | the search only needs the head of the last atom (`findTop_cut`); writing is parametric in the bytes behind moov (`writeTagTo_tail`) |
| C75 | overflow checks, number of iterations | every outcome of the model other than a panic due to an overflow check carries over to the build without checks and to more iterations (`PStable`, `WStable`, by composition); termination of the checked build (C38) rules out the remaining case; the primitive operations are tied to the exact result modulo 2^64 (C75_arithmetic) |
| C76 | several movie atoms | the search ends with the last one (`findTop_last`), reading stops at the first (`read_spec` with arbitrary bytes behind) |
| C77 | malformed chunk offset tables | a table is well-formed or cannot be read (`tableWF_iff`, `patchTable_break`); adjusting stops there with the tables in front done (`Break`, composed along the tree) |
| C78 | what the search accepts | backwards from the final position: every loop that stops at its limit has consumed atoms that fill it (`Fills`, `find_fills`), composed along the tree; uniqueness by injectivity of serialisation |
| C79 | damage inside moov | false, two witnesses; with a filled movie atom the first atom is `ftyp` by success (`parseFtyp_fills`), then C77_iff and C41 |
| C80 | items read are those of moov | false, with a witness; `parseMoov_fills` (Proof/AcceptRead): if the walk over moov ends at its end, every walk inside ended at the end of its atom, hence atoms fill all of them |
| C81 | reading after writing to any readable input | false, two witnesses; C80 gives a well-formed file with its items, C77_iff well-formed tables, then C41; with overflow checks reading stays within each atom (C89), so that what was read is read again |
| C82 | what the typed setters store | the item is found by C02/C03, its bytes by the emission lemma of C28; documented code tables; in-place updates of track and disc by the position of the first byte value |
| C83 | descriptions of errors of reading | model with descriptions refines the one without; each function only fails as its part of the catalogue allows (`Says`), with the named bytes as evidence; a file for each entry of the catalogue |
| C84 | descriptions of errors of writing | as C83; what is written in front of the item list is smaller than the buffer (`Small`, `Late`), so errors surface in the item list; outcomes only depend on the calls issued so far (`Loc`), hence a failing call for every file |
| C85 | descriptions of errors of dumping | the writes in order, each with the path of its atom (`dump_parts`); a writer with limited room takes a prefix |
| C86 | printed errors | the kinds' names are prefix free, identifiers have four characters, no text of the catalogue begins like a path |
| C87 | number of calls to the reader | each call costs a credit, each byte the position moves forward pays four (`Spend`, `Pot`); loops are free because a head pays for what is done with its atom; `mp4a` is the only place that moves back; lower bound by executing a family of files (`Go`) |
| C88 | memory requested | the requests are recorded in the state of the reader (`RSt.mem`); what is requested is then read, hence passed over: the sum of the requests plus what is left of the input never grows (`Mem`), since every part ends no earlier than it starts; inside `mp4a` and the search nothing is requested (`Calm`) |
| C89 | only ftyp and moov matter | false, two witnesses; with overflow checks a successful parse never moves back and can be repeated wherever the bytes it passed over are found (`Here`, Proof/Local), by induction over the loops of the reader |
| C90 | interrupted write | false, three witnesses; if the file keeps its length, every call writes bytes of the new file at their place (`Op.Agrees`, an invariant of the faulty writer, Proof/InPlace), and with a list that fits the buffer only one call changes anything |
| C91 | saving UTF-16 text | false, two witnesses; the plan and the patched sizes are those for values of the claimed size (`claimOf`, Proof/Shadow), to which the write theorem applies; the bytes that are too many are written before the moved data, which therefore covers them; Spec/Fill is Spec/Update for an item list with arbitrary content, of which `File.put` is the special case (`fill_put`) |
| C92 | descriptions of errors of a failing reader | the model with descriptions and an arbitrary reader refines both the one without descriptions and, unless a call fails, the one reading from memory (`RDSim`); a call that fails is described by the catalogue of its place; one file with a failing call for each entry |
| C93 | changes of the same size | the bytes around the item list are a function of its length (`Around`, level by level through `meta`, `udta`, `moov` and the shifted tables), those around a value of its type and length; then C48; an interrupted save: C90 with no growth |
| C94 | bytes and system calls of a save | each step adds its bytes to those written or buffered, and two calls that are not forced write at least as many bytes as the buffer holds: capacity times calls plus buffered bytes minus twice the bytes grows only with forced flushes (`Costs`, Proof/Cost); a table has as many entries as its size says or the save fails; with failing calls, the bytes written plus those buffered never exceed those of the fault-free run at the same point, since a failed flush keeps only what was not written (`Upto`, Proof/FaultCost) |
| C95 | callers with effects or panics | Model/Caller: predicates are functions of the caller's state that may panic; the index loops of `retain_data` are related to asking about the values one after the other (`sweep`, Proof/Caller) |
| C96 | buffered reading | Model/Buffered: std's `BufReader` over an arbitrary reader; each of its calls is one call of some unbuffered reader (`BSim`, one lemma per function), so C72 and C88 carry over; in front of a table the seek discards the buffer; the whole save (Model/BufSave: `BufReader` and `BufWriter` with one cursor) runs beside that of Model/Write in states that differ only in a cursor the next seek replaces (`Twin`, `CSim`, Proof/BufSave); with failing calls on both sides (Model/BufFault) it is a run of Model/Fault with the failing calls of both merged into one sequence (`FRel`, `FCSim`, Proof/BufFault), so C59, C60 and C94 carry over |
| C97 | identifier types of the caller | Model/UserIdent: a comparison function and a conversion in place of `Ident`; each operation splits the entries at the first one the comparison accepts |
| C98 | builds with a 32-bit `usize` | Model/Narrow: the readers and the save with `as usize` dropping the upper bits and vectors limited to 2^31 - 1 bytes; `NSim`: success is carried over call by call; `Inside`: patching tables never makes the file longer, so each further table is in a file below 2^31 bytes |
| C99 | short and interrupted writes | Model/Short: std's loops around `write` and `ftruncate` with a schedule for each call; one loop is one call of Model/BufFault (`put_sim`), with the writes in parts (`Pieces`); the two saves run in lock step, the reader in the same state (`SCSim`, Proof/Short), so C96, C60, C94 and C50 carry over |
| C100 | repeating a failed save | false, witnesses: a table adjusted twice, a second attempt that fails, an item list with a 64 bit size, a missing handler; if the length is kept, every state in between is the file with another body of the item list (`Slot`, from C90_bytes), and what a save makes of the file does not depend on this body (`at_put`), so attempts can be iterated |
| C101 | the program examples/string_encoding.rs | the program as reading, `data_mut` and writing by path (Model/Example.lean); specification by positions (Spec/Example.lean), met by nothing else (C101_tag); saving by C41, since nothing that is written is UTF-16; every entry that is read is visible, for any input (`readTag_visible`); the second run by `put_put` |
| C102 | taking changes back | histories of saves by induction over `put_put`; saving changes nothing iff the item list that counts is in saved form (`put_self`), since files are determined by their bytes (`file_inj`); saving onto a dump is dumping (`dumpFile_put`) |
| C103 | printing to a formatter that fails | `Display for Tag` and for `Error` again, with every `write_str` and every `?` (Model/Format.lean), for any splitting of the texts and any receiver; delivering (Spec/Format.lean) is compositional, and the texts are those of Model/Display.lean |
| C104 | reordering calls | which entries a call is about (Spec/Commute.lean, from the documentation); what a call does to an entry depends on that entry only, so an entry sees only the calls about it; `take_genre` is a counterexample otherwise, and the order of entries does depend on the order of calls (C104_order_visible) |
| C105 | sizes of values and entries | counted from the layout of the format (Spec/Size.lean), independently of the `len` methods of the code; below 4 GiB, where all atoms have 32 bit sizes |
| C106 | read, edit, save, read | the entries no call is about (`about` of Spec/Commute.lean) form the same list before and after; with C41 for files |
| C107 | read, edit, save, repeated | `sittings` (Spec/Sittings.lean) composes `readTag`, `runOps` and `writeTag`; the result does not depend on where the calls are divided; false for UTF-16 texts (C107_utf16, see C91) |
| C108 | payloads, `cause` and `source` of errors (Model/Cause.lean) | `source` is not implemented (C108_refuted); what `cause` gives follows from C59 and C72; C65_types and C65_matches add the borrowed identifiers |
