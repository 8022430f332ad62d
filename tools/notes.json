{
 "C15": {
  "note": "The table of generated accessors is finite; it is checked as a whole and lifted to all tags by C15_non_interference."
 },
 "C19": {
  "status": "partial",
  "note": "All clauses proved, except that set_total_* preserves the number when the stored value has exactly three bytes: false of the code (C19_refuted). Exactly: it fails if and only if the third byte of such a value is not zero (C19_iff)."
 },
 "C20": {
  "status": "partial",
  "note": "False of the code: an all-zero entry remains (C20_refuted_entry_remains, C20_entry_always_remains), and removing the total of a three byte value creates a number (C20_refuted_preserve). The other clauses are proved. Exactly: C20_iff, C20_entry_iff."
 },
 "C22": {
  "status": "partial",
  "note": "genres() is proved; genre() = first of genres() is false when an invalid standard code precedes a valid one (C22_refuted); proved otherwise. Exactly: C22_iff (it also holds if the first custom genre happens to have the name of the first known standard genre)."
 },
 "C23": {
  "status": "partial",
  "note": "All clauses proved, except that take_genre removes the custom genres when a standard genre is present: false of the code (C23_refuted). Exactly: C23_iff."
 },
 "C26": {
  "status": "partial",
  "note": "False of the code: UTF-16 text is cut in half (C26_refuted). Exactly: no tag with a nonempty UTF-16 text ever survives (C26_never), every other one does (C26_partial, C30_iff). What is left of such a text in last place: the first half of its UTF-16 units (C26_half), or an error if that cuts a surrogate pair (C26_torn)."
 },
 "C27": {
  "status": "partial",
  "note": "False of the code for UTF-16 text, for which twice as many bytes are written (C27_refuted, C27_refuted_iff). Proved for all other values."
 },
 "C30": {
  "status": "partial",
  "note": "False of the code: entries without values make the dump unreadable, entries called 'free' are lost, UTF-16 text is cut (C30_refuted_*). C30_iff says exactly which tags survive. C30_partial says what is read back in all cases other than empty entries and UTF-16 text."
 },
 "C38": {
  "status": "partial",
  "note": "Proved for builds with overflow checks, for reading and writing and all inputs. False without overflow checks: an atom with a 64 bit size of 0 is read forever (C38_refuted). Proved for every build and all byte strings whose 64 bit sizes are at least 16 and less than 2^63, with the length of the input as bound on the iterations of every loop (C38_sane, C38_sane_write); without this condition even checked builds take 2^57 iterations on 48 bytes (C38_slow)."
 },
 "C39": {
  "status": "partial",
  "note": "False of the code in every build (C39_refuted: timescale 0; C39_refuted_alloc: huge ftyp; C39_refuted_short_data) and in builds with overflow checks (C39_refuted_duration). Proved for well-formed files, also when cut off anywhere; defective files fail with an error by C37_defect. For arbitrary byte strings the causes listed in Spec/Sane.lean are the only ones (C39_causes, C39_causes_checked)."
 },
 "C45": {
  "status": "partial",
  "note": "False of the code: tracks behind the user data are not adjusted (C45_refuted_order), offsets into media data in front of moov are shifted when there is also media data behind it (C45_refuted_sides), 32 bit offsets wrap (C45_refuted_wrap). Proved for all other files (C45_partial). For all files: where all media data is moved and what becomes of every offset (C45_exact), and which offsets are right (C45_iff)."
 },
 "C49": {
  "status": "partial",
  "note": "False of the code: a chunk offset table that cannot be parsed is noticed after others have been rewritten (C49_refuted); with overflow checks a value of 4 GiB (C49_refuted_large) or user data claiming 2^63 bytes (C49_refuted_claim) causes a panic in the middle of the write. Proved for all byte strings in which no mdat follows moov (C49_partial). For all byte strings: a failure leaves the length and everything but entries of chunk offset tables (C49_tables_partial). Both include panics, in builds with overflow checks unless one of these two causes is present."
 },
 "C52": {
  "status": "partial",
  "note": "False of the code: chunk offsets (C52_refuted) and atom sizes (C52_refuted_size) are truncated silently. Proved: success is reported in any case, and the sizes stored are the right ones if and only if they fit (C52_exact); if everything fits, so are the chunk offsets (C52_partial; C45_exact for the general case)."
 },
 "C55": {
  "status": "partial",
  "note": "False of the code: write_to leaves the cursor at the end, every further operation on the handle fails with an I/O error (C55_refuted, for all files). Proved for a handle that is rewound (C55_partial)."
 },
 "C56": {
  "status": "partial",
  "note": "False of the code: 'Top 41', 'Hip,-Hop', 'Lo,-Fi' (C56_refuted). Proved for all codes up to case and punctuation, except for code 61. Exactly: nine names are spelled differently, one is different up to case and punctuation (C56_iff)."
 },
 "C58": {
  "status": "partial",
  "note": "False of the code for media data behind moov (C58_refuted). Proved for files with all media data in front of moov (C58_partial). Proved for all files, whichever calls fail and wherever the process stops, also within a low-level write: there is a boundary so that media data in front of it is at its new place and media data behind it at its old one, except for as many bytes as the file grows or shrinks by (C58_boundary_partial); so at most that many bytes, next to each other, are at neither place (C58_window_partial). That cannot be improved: for every file and every boundary there is a moment with that boundary (C58_lost). If the file keeps its length nothing is lost (C90_media)."
 },
 "C62": {
  "status": "partial",
  "note": "False of the code: a file cut off within its item list (C62_refuted, every build), a chunk offset of 2^63 in a well-formed file (C62_refuted_co64, with overflow checks; the file is left damaged). Proved for any bytes with sane 64 bit sizes in which no moov, udta, meta or ilst atom extends beyond the end (C62_partial, without overflow checks), and with overflow checks for moderate lengths and no 64 bit chunk offsets in addition (C62_checked_partial)."
 },
 "C63": {
  "status": "partial",
  "note": "False of the code: a text with a line break imitates other fields (C63_refuted_linebreak), a single genre behind an unknown standard genre is not printed (C63_refuted_genre). Proved for all tags without line breaks, for genres if there are several or the first standard genre is known. Exactly for genres: C63_genres_iff."
 },
 "C65": {
  "status": "partial",
  "note": "False of the code for freeform identifiers with a colon in the mean (C65_refuted). Proved for all other identifiers. Exactly: C65_iff."
 },
 "C71": {
  "status": "partial",
  "note": "False of the code without overflow checks: 92 + N + V bytes yield 9 + N copies of a value of V bytes, because a 64 bit size of an inner atom makes skipping go backwards (C71_amplifies, C71_false). Proved for all input in which no 64 bit size is below 16 or at least 2^63 (SaneSizes); copies without UTF-16 texts (see C26)."
 },
 "C73": {
  "status": "partial",
  "note": "False of the code: a 64 bit size of 2^63 or more within a track makes the search continue in front of moov, and bytes there that look like a chunk offset table are changed (C73_refuted, every build, the write succeeds). Proved for all input in which no 64 bit size is below 16 or at least 2^63 (SaneSizes), with all I/O faults and crash points."
 },
 "C78": {
  "status": "proved",
  "note": "SaneSizes: no 64 bit size is below 16 or at least 2^63 (see C73 for what happens otherwise). C78_written in addition supposes 64 bit chunk offsets below 2^62; then, by C77, success means that all tables that count are well-formed."
 },
 "C79": {
  "status": "partial",
  "note": "False of the code: sizes are not compared with those of the containers. An ilst that claims 8 bytes too many makes writing delete the head of the media data and report success (C79_refuted); a free atom that does makes a readable file unreadable, with success reported (C79_unreadable). Proved if the contents of moov are filled with atoms (C79_partial)."
 },
 "C80": {
  "status": "partial",
  "note": "False of the code: an atom in moov that claims too many bytes makes the reader take atoms behind moov for items; the media data becomes an item called mdat (C80_outside, C80_refuted, every build). Proved (C80_partial): reading never ends before the end of moov, and if it ends exactly there, the content of moov is well-formed and the items are those of moov. C80_end: on well-formed files it does end there."
 },
 "C81": {
  "status": "partial",
  "note": "False of the code: see C79_unreadable (every build); and without overflow checks the duration of a movie header that is too short is read from the size of the following atom, so that writing changes it (C81_duration). Proved (C81_partial): if reading ended at the end of moov, the input is a file, and the claim holds provided that movie header and audio descriptions are complete, the sizes can be stored and 64 bit chunk offsets are below 2^62. With overflow checks (C81_checked) they need not be complete: whatever was read before is read again."
 },
 "C84": {
  "status": "proved",
  "note": "Failing calls during the search are covered by C92. With a buffer of at least 128 bytes the new udta, meta and hdlr are never named by an error of writing alone, since their bytes are still in the buffer; std's BufWriter has 8192."
 },
 "C85": {
  "status": "proved",
  "note": "The writer takes a prefix and then fails, as a slice or a full disk does."
 },
 "C87": {
  "status": "partial",
  "note": "False of the code in builds without overflow checks: descriptors in mp4a that claim more than the atom are followed to the end of the file, for each mp4a again (C87_quadratic, C87_refuted). Proved: at most four calls per byte with overflow checks (C87_checked), without mp4a (C87_no_mp4a), and five for the reading part of writing (C87_write); in general three more per byte and mp4a (C87_partial)."
 },
 "C88": {
  "status": "partial",
  "note": "False of the code: a buffer is requested for the claimed size before anything is read, so 16 bytes of input can request any amount of memory (C88_claimed, C88_refuted). Proved: all requests but the last fit side by side into the input, and so does the last unless the outcome is an I/O error or a panic (C88_partial, C88_ok); twice the input for the reading part of writing (C88_write); tables (C88_table)."
 },
 "C89": {
  "status": "partial",
  "note": "False of the code: with a size that does not fit the items are read behind moov (C89_behind, C89_refuted, every build), and without overflow checks a short mvhd is read into the atom behind moov, although reading ends at the end of moov (C89_unchecked). Proved with overflow checks: nothing matters but ftyp and the bytes from moov up to where reading ended (C89_upto), hence the claim if that is the end of moov (C89_partial)."
 },
 "C90": {
  "status": "partial",
  "note": "False of the code: after set_len no tag can be read (C90_refuted); even if the file keeps its length, a list of items that does not fit into the buffer is written with several calls, between which the title is new and the artist old (C90_mixed), and so it is within the call (C90_torn). Proved if the file keeps its length (growth 0): every byte is that of the old or of the new file, whichever calls fail and wherever the process stops, also within a call (C90_bytes), all media data survives at its place on both sides of moov (C90_media), and, if the items fit into the buffer and calls are executed as a whole or not at all, the file is exactly the old or the new one (C90_atomic_partial) and so is the tag (C90_tag_partial)."
 },
 "C91": {
  "status": "partial",
  "note": "False of the code: if too little data follows, part of the surplus remains behind the last atom, after which the file cannot be saved again (C91_refuted), and saving what was read halves a text each time (C91_erodes). Proved for all texts: everything outside of the item list is as for values of the claimed sizes (C91_partial), all other top level atoms are kept and at most surplus minus what follows is added (C91_media), nothing if enough data follows (C91_clean); without UTF-16 texts this is the ordinary case (C91_plain). The resulting tree for all items: the atoms around the item list as usual, in it the first bytes of the items (C91_tree), everything else kept (C91_kept), equal to the ordinary tree without texts (C91_same). If the last value is a text and the only one, exactly its first half is read back, everything else as it was (C91_read, C91_half)."
 },
 "C100": {
  "status": "partial",
  "note": "False of the code: if the save fails after some chunk offset tables were adjusted, the second attempt reports success but adjusts them again, so that chunks are looked for at wrong places (C100_twice, C100_refuted); if it fails after the size of moov was changed, the second attempt fails without failing calls (C100_stuck). Proved: if the saves keep the length of the file, and it has a handler and an item list with a 32 bit size, then after any number of failed or stopped attempts, also of other tags, a save leaves the file it would have left at once (C100_partial); without the 32 bit size (C100_long) or the handler (C100_handler) this is false as well. If the length changes: if the attempt has left the old or the new file (C100_whole), in particular if it failed in the search (C100_search)."
 },
 "C108": {
  "status": "partial",
  "note": "False of the code: source is not implemented (C108_refuted), and cause leaves out the errors of decoding a text (C108_text). Proved: cause gives the I/O error whenever a call to the reader or writer fails, unless the save fails anyway."
 }
}