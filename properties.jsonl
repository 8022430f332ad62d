{"id": "C01", "title": "Every identifier occurs at most once in a tag", "statement": "After any sequence of calls to the mutating Tag API, starting from Tag::default(), from a tag without duplicate identifiers, or from the result of a successful Tag::read_from, no two entries of the tag carry the same identifier.", "quantifier": "all start tags (default or read from any byte sequence) and all finite sequences of API operations with arbitrary arguments (identifiers of the three types of the library; other implementations of the trait: C97)", "why_tests_cant": "The claim is about histories of unbounded length with arbitrary identifiers; tests fix a handful of histories.", "anchors": ["src/tag/mod.rs: set_data, set_all_data, add_data, add_all_data, remove_data_of, retain_data_of, retain_data, take_data_of, clear", "src/atom/ilst.rs: Ilst::parse_atom"]}
{"id": "C02", "title": "Set replaces exactly one identifier's values", "statement": "After set_data(i,d) / set_all_data(i,ds), data_of(i) yields exactly [d] / ds, and data_of(j) is unchanged for every identifier j other than i.", "quantifier": "all tags, identifiers (fourcc, freeform, owned), values and value lists", "why_tests_cant": "Frame conditions range over every other identifier and every prior tag content.", "anchors": ["src/tag/mod.rs: set_data, set_all_data, data_of"]}
{"id": "C03", "title": "Add appends to exactly one identifier's values", "statement": "After add_data(i,d) / add_all_data(i,ds), data_of(i) yields the old values followed by d / ds, and data_of(j) is unchanged for j other than i.", "quantifier": "all tags, identifiers, values", "why_tests_cant": "Universally quantified frame condition.", "anchors": ["src/tag/mod.rs: add_data, add_all_data, data_of"]}
{"id": "C04", "title": "Removal removes exactly the requested values", "statement": "After remove_data_of(i), data_of(i) is empty; after remove_bytes_of / remove_strings_of / remove_images_of(i) data_of(i) keeps, in order, exactly the values of the other kinds; data_of(j) is unchanged for j other than i.", "quantifier": "all duplicate-free tags and identifiers", "why_tests_cant": "Universally quantified frame condition and arbitrary value mixes.", "anchors": ["src/tag/mod.rs: remove_data_of, remove_bytes_of, remove_strings_of, remove_images_of"]}
{"id": "C05", "title": "Take returns the stored values and removes the entry", "statement": "take_data_of(i) / take_bytes_of / take_strings_of / take_images_of return exactly what data_of / bytes_of / strings_of / images_of returned before, in the same order; afterwards nothing is stored under i and every other identifier is unchanged.", "quantifier": "all duplicate-free tags and identifiers", "why_tests_cant": "Arbitrary tag contents.", "anchors": ["src/tag/mod.rs: take_data_of, take_bytes_of, take_strings_of, take_images_of"]}
{"id": "C06", "title": "Retain keeps exactly the matching values, in order", "statement": "retain_data_of(i,p) keeps under i exactly the values satisfying p, in order, and drops the entry if none remain; retain_data(p) does so for all identifiers with p applied to (identifier, value); the bytes/strings/images variants leave values of other kinds untouched; no other value changes.", "quantifier": "all tags, identifiers and predicates", "why_tests_cant": "Quantifies over all predicates and contents; the implementation is an index-juggling nested loop.", "anchors": ["src/tag/mod.rs: retain_data_of, retain_bytes_of, retain_strings_of, retain_images_of, retain_data, retain_bytes, retain_strings, retain_images"]}
{"id": "C07", "title": "A tag behaves like an ordered map from identifiers to value lists", "statement": "Under every sequence of API operations the tag's observable content (data_of for every identifier, and the order of first insertion) equals that of a simple abstract ordered map to which the same operations are applied.", "quantifier": "all finite operation sequences", "why_tests_cant": "Unbounded histories.", "anchors": ["src/tag/mod.rs: all mutators and data_of, data, is_empty"]}
{"id": "C08", "title": "Whole-tag enumeration is complete and ordered", "statement": "data() enumerates every stored (identifier, value) pair exactly once, grouped by entry in entry order; bytes(), strings(), images() are its restrictions to one kind; take_data/take_bytes/take_strings/take_images yield the same sequences; is_empty() holds iff no entry is stored and clear() makes it hold.", "quantifier": "all tags", "why_tests_cant": "Arbitrary contents.", "anchors": ["src/tag/mod.rs: data, bytes, strings, images, take_data, take_bytes, take_strings, take_images, is_empty, clear"]}
{"id": "C09", "title": "Mutable views touch only the addressed values", "statement": "Any mutation through data_mut_of / bytes_mut_of / strings_mut_of / images_mut_of(i) leaves every other identifier's values, and values of other kinds under i, unchanged, keeps the number of values under i and cannot change the kind of a value when done through the typed views.", "quantifier": "all tags, identifiers and user mutation functions", "why_tests_cant": "Quantifies over arbitrary user closures.", "anchors": ["src/tag/mod.rs: data_mut_of, bytes_mut_of, strings_mut_of, images_mut_of", "src/atom/data.rs: bytes_mut, string_mut, image_mut"]}
{"id": "C10", "title": "Each value is of exactly one kind", "statement": "For every value exactly one of is_bytes, is_string, is_image holds, and bytes()/string()/image() return Some exactly in the matching case, with the stored payload (and the right image format); From<Img> followed by image() is the identity.", "quantifier": "all values", "why_tests_cant": "Infinite value domain.", "anchors": ["src/atom/data.rs: is_bytes, is_string, is_image, bytes, string, image, From<Img>"]}
{"id": "C11", "title": "Single-string accessors", "statement": "For every single-string accessor x: after set_x(s), x() = Some(s); after remove_x, x() = None; take_x returns x() and afterwards x() = None; no other identifier is affected.", "quantifier": "all duplicate-free tags, strings, and all 12 generated accessors", "why_tests_cant": "Arbitrary prior tag contents, all strings.", "anchors": ["proc/src/lib.rs: single_string_value_accessor", "src/tag/mod.rs: accessor list"]}
{"id": "C12", "title": "Multi-string accessors", "statement": "For every multi-string accessor x: set_xs(l) makes xs() = l; set_x(s) makes xs() = [s]; add_x / add_xs append after existing string values; x() is the first of xs(); take_xs returns xs() and empties; remove_xs empties; other identifiers unaffected.", "quantifier": "all duplicate-free tags, string lists, all 10 generated accessors", "why_tests_cant": "Arbitrary prior contents and lists.", "anchors": ["proc/src/lib.rs: multiple_string_values_accessor", "src/tag/mod.rs: accessor list"]}
{"id": "C13", "title": "Flag accessors", "statement": "set_x makes x() true, remove_x makes it false; x() is true exactly when the first byte value stored under the identifier starts with 1; other identifiers unaffected.", "quantifier": "all duplicate-free tags, 3 flags", "why_tests_cant": "Arbitrary prior contents.", "anchors": ["proc/src/lib.rs: flag_value_accessor"]}
{"id": "C14", "title": "Integer accessors", "statement": "For each u16/u32 accessor, get after set returns the set number for every number; get returns None when nothing or too few bytes are stored and reads the first 2/4 bytes big-endian otherwise.", "quantifier": "all duplicate-free tags and all u16/u32 values", "why_tests_cant": "2^16/2^32 values times arbitrary tags.", "anchors": ["proc/src/lib.rs: u16_value_accessor, u32_value_accessor", "src/atom/data.rs: be_int!"]}
{"id": "C15", "title": "Accessors use their documented identifiers", "statement": "Every generated accessor reads and writes exactly the atom identifier documented for it (e.g. title <-> ©nam, isrc <-> ----:com.apple.iTunes:ISRC), and distinct accessors use distinct identifiers, so no accessor disturbs another. Every public constant has the identifier given in its documentation.", "quantifier": "the whole tables of generated accessors and constants, all tags", "why_tests_cant": "Non-interference ranges over all tags and pairs of accessors.", "anchors": ["src/atom/ident.rs: constants", "proc/src/lib.rs: base_values", "src/tag/mod.rs: accessor list"]}
{"id": "C16", "title": "Artwork accessors", "statement": "set_artwork(img) makes artworks() = [img] with format preserved; set_artworks, add_artwork(s), take_artwork(s), remove_artworks behave like the list operations on artworks(); artwork() is the first.", "quantifier": "all duplicate-free tags and images", "why_tests_cant": "Arbitrary contents.", "anchors": ["src/tag/mod.rs: artwork accessors", "src/atom/data.rs: From<Img>"]}
{"id": "C17", "title": "Media type round-trip", "statement": "set_media_type(m) makes media_type() = Some(m) for every m; distinct media types have distinct codes; an unknown stored code or an empty value yields None.", "quantifier": "all tags, media types, code bytes", "why_tests_cant": "Arbitrary stored bytes.", "anchors": ["src/types.rs: MediaType", "src/tag/mod.rs: media_type, set_media_type"]}
{"id": "C18", "title": "Advisory rating round-trip", "statement": "set_advisory_rating(r) makes advisory_rating() = Some(r); any stored code other than 0 and 2 reads as Explicit; an empty value reads as None.", "quantifier": "all tags, ratings, code bytes", "why_tests_cant": "Arbitrary stored bytes.", "anchors": ["src/types.rs: AdvisoryRating", "src/tag/mod.rs: advisory_rating, set_advisory_rating"]}
{"id": "C19", "title": "Track and disc numbers update independently", "statement": "set_track(n,t)/set_disc make track()/disc() = (n,t) with 0 read as absent; set_track_number keeps total_tracks and vice versa (same for discs); track() always equals (track_number(), total_tracks()); track operations never change disc values and vice versa; no other identifier is affected. This holds whatever bytes are stored, including too-short and too-long values.", "quantifier": "all duplicate-free tags (any stored bytes, any length) and all u16 values", "why_tests_cant": "Arbitrary stored byte strings.", "anchors": ["src/tag/tuple.rs"]}
{"id": "C20", "title": "Removing track/disc number or total", "statement": "remove_track_number makes track_number() None and preserves total_tracks(); remove_total_tracks makes total_tracks() None and preserves track_number(); remove_track makes both None (same for discs). Moreover, when the last of the two is removed no track entry remains in the tag.", "quantifier": "all duplicate-free tags", "why_tests_cant": "Arbitrary stored byte strings.", "anchors": ["src/tag/tuple.rs: remove_track_number, remove_total_tracks, remove_disc_number, remove_total_discs"]}
{"id": "C21", "title": "Standard genre codes", "statement": "set/add_standard_genre(s) store codes such that standard_genres() returns exactly them in order for every u16 code; values shorter than 2 bytes are skipped; code c names STANDARD_GENRES[c-1] for 1<=c<=80 and nothing otherwise.", "quantifier": "all tags and u16 codes", "why_tests_cant": "All codes and stored bytes.", "anchors": ["src/tag/genre.rs"]}
{"id": "C22", "title": "Genre queries combine standard and custom genres", "statement": "genres() yields the names of all stored valid standard codes followed by all custom genres; genre() returns the first element of genres().", "quantifier": "all tags", "why_tests_cant": "Arbitrary stored codes.", "anchors": ["src/tag/genre.rs: genres, genre"]}
{"id": "C23", "title": "Setting, taking and removing genres", "statement": "set_genre(s)/set_genres(l) leave genres() = [s]/l with no standard genres; remove_genres leaves genres() empty; take_genres returns genres() and removes all custom genres; take_genre returns genre() and removes all custom genres; other identifiers unaffected.", "quantifier": "all duplicate-free tags and strings", "why_tests_cant": "Arbitrary contents.", "anchors": ["src/tag/genre.rs: set_genre, set_genres, remove_genres, take_genres, take_genre"]}
{"id": "C24", "title": "UTF-8 text is stored losslessly and invalid UTF-8 is rejected", "statement": "For every string, the bytes stored for it as a UTF-8 value decode to the same string; a stored byte sequence is accepted as a UTF-8 value only if it is the encoding of the string returned, otherwise reading fails with a UTF-8 decoding error.", "quantifier": "all strings of Unicode scalar values, all byte sequences", "why_tests_cant": "Infinite domain.", "anchors": ["src/atom/data.rs: read_utf8, write_raw"]}
{"id": "C25", "title": "UTF-16 text decoding", "statement": "The big-endian UTF-16 bytes written for a string decode to the same string; unpaired surrogates are rejected with a UTF-16 decoding error; an odd trailing byte is ignored.", "quantifier": "all strings, all byte sequences", "why_tests_cant": "Infinite domain.", "anchors": ["src/atom/data.rs: read_utf16, write_raw"]}
{"id": "C26", "title": "UTF-16 values survive being dumped or written", "statement": "A tag containing UTF-16 values, when dumped or written and read back, yields the same values.", "quantifier": "all tags with UTF-16 values", "why_tests_cant": "All strings.", "anchors": ["src/atom/data.rs: Data::len, write_raw", "src/atom/mod.rs: AtomData::len, write"]}
{"id": "C27", "title": "Data::len is the number of stored bytes", "statement": "Data::len equals the number of bytes the value occupies when written, and is_empty holds iff that number is 0; AtomData::is_empty holds iff none of its values stores a byte.", "quantifier": "all values", "why_tests_cant": "Infinite value domain.", "anchors": ["src/atom/data.rs: Data::len, is_empty, write_raw", "src/atom/mod.rs: AtomData::is_empty, len"]}
{"id": "C28", "title": "Dump output is a well-formed container", "statement": "dump_to emits exactly a ftyp atom followed by moov/udta/meta/(hdlr, ilst) whose every size field equals the actual size of the atom it heads, each item being laid out as documented, using 64-bit sizes exactly when an atom does not fit in 32 bits.", "quantifier": "all tags without UTF-16 values whose items are smaller than 4 GiB", "why_tests_cant": "All tag contents and sizes.", "anchors": ["src/atom/mod.rs: dump_tag_to, AtomData::write, AtomData::len", "src/atom/head.rs: Size::from, write_head", "src/atom/{moov,udta,meta,hdlr,ilst,ftyp}.rs: write_atom, size"]}
{"id": "C29", "title": "Dump then read returns the same tag items", "statement": "Reading back what dump_to wrote yields exactly the dumped items: same identifiers, same order, same typed values.", "quantifier": "all duplicate-free tags whose entries are non-empty, not named 'free', contain no UTF-16 value and are smaller than 4 GiB", "why_tests_cant": "All tag contents.", "anchors": ["src/atom/mod.rs: dump_tag_to, read_tag_from, AtomData::parse, AtomData::write"]}
{"id": "C30", "title": "Every tag buildable through the API can be dumped and read back", "statement": "The previous round trip holds for every tag the API can build, without further conditions (entries emptied by set_all_data(i, []), identifier 'free', identifier '----', UTF-16 values).", "quantifier": "all API-reachable tags", "why_tests_cant": "The exceptional inputs are exactly what samples miss.", "anchors": ["src/atom/mod.rs: AtomData::parse, AtomData::write", "src/atom/ilst.rs: parse_atom", "src/tag/mod.rs: set_all_data"]}
{"id": "C31", "title": "Reading a well-formed file returns its metadata", "statement": "For every file that is a well-formed atom tree (any nesting of unknown atoms, 32- or 64-bit sizes, any order of siblings), read_from succeeds and returns the ftyp string, the audio info and the items of the item list in the movie's user data.", "quantifier": "all well-formed atom trees of any size", "why_tests_cant": "Unbounded family of files.", "anchors": ["src/atom/mod.rs: read_tag_from, AtomData::parse", "src/atom/*.rs: parse_atom"]}
{"id": "C32", "title": "Items sharing an identifier are merged in file order", "statement": "If the item list contains several items with the same identifier, read_from returns one entry at the position of the first, holding the values of all of them in file order; freeform items are identified by mean and name.", "quantifier": "all well-formed item lists", "why_tests_cant": "Arbitrary numbers and interleavings of duplicates.", "anchors": ["src/atom/ilst.rs: parse_atom", "src/atom/mod.rs: AtomData::parse"]}
{"id": "C33", "title": "Unknown atoms are ignored", "statement": "Inserting or removing atoms with identifiers the library does not interpret, at any level of the hierarchy, does not change the tag returned by read_from.", "quantifier": "all well-formed files, all unknown atoms, all positions", "why_tests_cant": "Arbitrary positions and contents.", "anchors": ["src/atom/*.rs: parse_atom", "src/atom/mod.rs: read_tag_from"]}
{"id": "C34", "title": "A file without metadata reads as an empty tag", "statement": "If the movie has no udta, no meta or no ilst, read_from succeeds with an empty tag and still reports audio info.", "quantifier": "all well-formed files lacking part of the hierarchy", "why_tests_cant": "Arbitrary files.", "anchors": ["src/atom/mod.rs: read_tag_from"]}
{"id": "C35", "title": "Audio information is decoded correctly", "statement": "Duration equals floor(duration*10^9/timescale) ns for both header versions; bitrates, sample rate and channel configuration equal those encoded in the decoder config of the first audio track, for every descriptor length encoding (1 to 4 bytes) and any extra descriptors.", "quantifier": "all header values, descriptor layouts", "why_tests_cant": "2^96 header values and unbounded descriptor layouts.", "anchors": ["src/atom/mvhd.rs", "src/atom/mp4a.rs", "src/atom/stsd.rs", "src/types.rs: SampleRate, ChannelConfig", "src/atom/mod.rs: read_tag_from"]}
{"id": "C36", "title": "Sample rate and channel tables", "statement": "Sample rate indices 0..12 map to the MPEG-4 rates, channel configurations 1..7 to 1,2,3,4,5,6,8 channels, and every other index is reported as absent rather than as an error.", "quantifier": "all index values", "why_tests_cant": "Complete finite domain combined with arbitrary bit packing.", "anchors": ["src/types.rs: SampleRate, ChannelConfig", "src/atom/mp4a.rs: parse_ds_desc"]}
{"id": "C37", "title": "Non-MP4 input is rejected with the documented error", "statement": "If the first atom is not ftyp, read_from and write_to fail with NoTag; if a well-formed file has no moov atom they fail with AtomNotFound(moov); if a moov/meta/data/stsd/... carries an unknown version or data type, the read fails with UnknownVersion / UnknownDataType and does not return a partial tag.", "quantifier": "all byte sequences with a complete first head; all well-formed sequences of top-level atoms", "why_tests_cant": "Arbitrary inputs.", "anchors": ["src/atom/ftyp.rs: parse", "src/atom/mod.rs: read_tag_from, write_tag_to, AtomData::parse"]}
{"id": "C38", "title": "Reading always terminates", "statement": "read_from returns (a tag, an error or a panic) on every input; it never loops forever.", "quantifier": "all byte sequences, both build profiles", "why_tests_cant": "All inputs including adversarial ones.", "anchors": ["src/atom/mod.rs: read_tag_from", "src/atom/head.rs: parse_head, content_len", "src/atom/*.rs: parse_atom loops"]}
{"id": "C39", "title": "Reading never panics", "statement": "read_from never panics, whatever the input.", "quantifier": "all byte sequences, both build profiles", "why_tests_cant": "All inputs including adversarial ones.", "anchors": ["src/atom/mvhd.rs: parse_atom", "src/atom/head.rs: content_len", "src/atom/mp4a.rs", "src/atom/mod.rs: AtomData::parse"]}
{"id": "C40", "title": "32-bit and 64-bit atom sizes are interchangeable", "statement": "Re-encoding any atom header of a well-formed file from the 32-bit to the 64-bit size form (or back when it fits) does not change the tag read.", "quantifier": "all well-formed files and all headers", "why_tests_cant": "Arbitrary files.", "anchors": ["src/atom/head.rs: parse_head, Size"]}
{"id": "C41", "title": "Write then read returns the written items", "statement": "After a successful write_to on a well-formed file, read_from on that file returns exactly the items of the written tag. So two tags that leave the same bytes when saved to the same file have the same items.", "quantifier": "all well-formed single-movie files and all writable tags", "why_tests_cant": "All pairs of files and tags.", "anchors": ["src/atom/mod.rs: write_tag_to, read_tag_from"]}
{"id": "C42", "title": "Write preserves file type and audio information", "statement": "write_to does not change the filetype, duration, bitrates, sample rate or channel configuration reported by read_from.", "quantifier": "all well-formed files and writable tags", "why_tests_cant": "All pairs.", "anchors": ["src/atom/mod.rs: write_tag_to, read_tag_from"]}
{"id": "C43", "title": "Write keeps every other atom byte for byte", "statement": "write_to turns a well-formed file into a well-formed file with the same atom tree, in which every atom other than the item list, (missing) parents of it and chunk offset tables has identical content, and every size field is consistent.", "quantifier": "all well-formed files and writable tags", "why_tests_cant": "All pairs.", "anchors": ["src/atom/mod.rs: write_tag_to"]}
{"id": "C44", "title": "Media data is not moved or changed relative to its atoms", "statement": "After write_to every top-level atom other than moov (in particular every mdat) is present with identical bytes, in the same order, and everything in front of moov is at its old position.", "quantifier": "all well-formed files and writable tags", "why_tests_cant": "All pairs.", "anchors": ["src/atom/mod.rs: write_tag_to"]}
{"id": "C45", "title": "Chunk offsets keep pointing at the same media bytes", "statement": "After write_to, every chunk offset of every track designates the same media data as before the write.", "quantifier": "all well-formed files whose chunk offsets point into an mdat, all writable tags", "why_tests_cant": "All layouts; only some atom orders and offset magnitudes trigger the failing paths.", "anchors": ["src/atom/mod.rs: write_tag_to (chunk offset adjustment)", "src/atom/stco.rs", "src/atom/co64.rs"]}
{"id": "C46", "title": "Missing hierarchy is created", "statement": "Writing to a well-formed file lacking udta, meta, hdlr or ilst creates exactly the missing atoms at the end of the innermost existing parent (hdlr directly before the item list), and succeeds.", "quantifier": "all well-formed files lacking part of the hierarchy", "why_tests_cant": "Arbitrary files.", "anchors": ["src/atom/mod.rs: write_tag_to", "src/atom/meta.rs: Meta::hdlr"]}
{"id": "C47", "title": "Writing is idempotent", "statement": "Writing the same tag a second time leaves the file unchanged.", "quantifier": "all well-formed files and writable tags", "why_tests_cant": "All pairs.", "anchors": ["src/atom/mod.rs: write_tag_to"]}
{"id": "C48", "title": "The last write wins", "statement": "Writing tag A and then tag B leaves the same file as writing only B.", "quantifier": "all well-formed files and pairs of writable tags", "why_tests_cant": "All triples.", "anchors": ["src/atom/mod.rs: write_tag_to"]}
{"id": "C49", "title": "A failed write leaves the file unchanged", "statement": "If write_to returns an error (or panics), the file content is the same as before.", "quantifier": "all byte sequences as files, all tags", "why_tests_cant": "All malformed inputs.", "anchors": ["src/atom/mod.rs: write_tag_to"]}
{"id": "C50", "title": "Crash during write cannot damage data in front of the movie atom", "statement": "If the process is stopped at any point during write_to, every byte of the file in front of the moov atom is unchanged; hence media data stored before moov survives every crash.", "quantifier": "all well-formed files, all tags, all crash points (including in the middle of a low-level write)", "why_tests_cant": "All crash points.", "anchors": ["src/atom/mod.rs: write_tag_to"]}
{"id": "C51", "title": "The result of a write does not depend on buffering", "statement": "Neither the outcome of a write nor the final file content depends on the buffer size of the buffered writer nor on where read-ahead left the shared file cursor, also if the write ends with an error or a panic.", "quantifier": "all buffer capacities (of more than 8 bytes, for files that are not well-formed), all cursor positions, all files, well-formed or not, and all tags", "why_tests_cant": "Unbounded family of schedules.", "anchors": ["src/atom/mod.rs: write_tag_to (BufReader/BufWriter sharing one File)"]}
{"id": "C52", "title": "Overflowing sizes are not written silently", "statement": "If updating the file would need a chunk offset or atom size that does not fit its field, write_to reports an error instead of storing a truncated value.", "quantifier": "all files and tags near the 4 GiB boundary", "why_tests_cant": "Needs 4 GiB inputs.", "anchors": ["src/atom/mod.rs: write_tag_to (as u32 casts)"]}
{"id": "C53", "title": "File length accounting", "statement": "After write_to the file length equals the old length plus the size of the new item list (and created parents) minus the size of the old item list.", "quantifier": "all well-formed files and writable tags", "why_tests_cant": "All pairs.", "anchors": ["src/atom/mod.rs: write_tag_to (len_diff, set_len)"]}
{"id": "C54", "title": "Writing a tag that was just read changes nothing", "statement": "If a file was produced by write_to (canonical item list), reading the tag and writing it back leaves the file unchanged.", "quantifier": "all files that are results of a write", "why_tests_cant": "All files.", "anchors": ["src/atom/mod.rs: read_tag_from, write_tag_to"]}
{"id": "C55", "title": "A second operation on the same handle starts where the first began", "statement": "After write_to returns, calling read_from or write_to again on the same handle (without rewinding it) works on the file that was just written.", "quantifier": "all well-formed files and tags", "why_tests_cant": "All files; the crate's own tests rewind or reopen the file between operations.", "anchors": ["src/atom/mod.rs: write_tag_to, read_tag_from", "src/tag/mod.rs: write_to, read_from"]}
{"id": "C56", "title": "The standard genre table is the ID3v1 list", "statement": "The name returned for a standard genre code is the ID3v1 genre name with number code - 1, for every code.", "quantifier": "all codes 1..=80", "why_tests_cant": "The claim is about the whole table at once and the functions that index it with any u16.", "anchors": ["src/tag/genre.rs: STANDARD_GENRES, genre_name"]}
{"id": "C57", "title": "A truncated file never yields a different tag", "statement": "Reading any prefix of an input gives the same outcome as reading the whole input, or an I/O error, or AtomNotFound(moov); in particular a tag read from an incomplete download is the tag of the complete file.", "quantifier": "all byte sequences (well-formed or not), all cut positions, both build profiles", "why_tests_cant": "All inputs and cut positions.", "anchors": ["src/atom/mod.rs: read_tag_from, parse_data", "src/atom/head.rs: parse_head", "src/atom/data.rs: ReadUtil, remaining_stream_len"]}
{"id": "C58", "title": "A crash during a write never loses media data", "statement": "If the process is stopped at any point during write_to, the file left behind still contains every byte of media data that was in an mdat before.", "quantifier": "all well-formed files, all tags, all crash points (including in the middle of a low-level write)", "why_tests_cant": "All crash points and layouts.", "anchors": ["src/atom/mod.rs: write_tag_to (set_len, rewriting of the moved data)"]}
{"id": "C59", "title": "No I/O error is swallowed by write_to", "statement": "If write_to returns Ok, none of its I/O calls failed (including the ones made when the buffer is flushed), and the file is the one an error-free run produces. If a call fails, the outcome is an I/O error unless another failure was already being reported. An error while searching leaves the file unchanged.", "quantifier": "all byte sequences as file, all tags, all schedules of failing calls (any call, after any number of transferred bytes), all buffer capacities", "why_tests_cant": "All failure schedules on all files; the last buffer is written implicitly when BufWriter is dropped, where errors are ignored, so it depends on the explicit flush on every path.", "anchors": ["src/atom/mod.rs: write_tag_to"]}
{"id": "C60", "title": "I/O errors never damage what is in front of moov", "statement": "Whatever calls fail during write_to, and whatever the buffer writes on drop after the error, all bytes in front of moov (ftyp, media data in front) stay as they are.", "quantifier": "all well-formed files, all tags, all failure schedules, all buffer capacities and positions the reader leaves the shared cursor at", "why_tests_cant": "All failure schedules; reader and writer share one cursor, so a partially flushed buffer could be written elsewhere.", "anchors": ["src/atom/mod.rs: write_tag_to"]}
{"id": "C61", "title": "dump_to to a failing writer", "statement": "What a failing writer has received is always a prefix of the complete dump; Ok means it received all of it; a failing call gives an I/O error.", "quantifier": "all tags, all failure schedules", "why_tests_cant": "All tags and schedules.", "anchors": ["src/atom/mod.rs: dump_tag_to", "src/tag/mod.rs: dump_to"]}
{"id": "C62", "title": "Writing to arbitrary input does not panic", "statement": "write_to never panics, whatever bytes the file consists of.", "quantifier": "all byte strings, all cursor positions, all tags, builds with and without overflow checks", "why_tests_cant": "All byte strings and both build profiles; panics hide behind sizes that point beyond the end of the file and behind overflowing arithmetic.", "anchors": ["src/atom/mod.rs: write_tag_to", "src/atom/head.rs: find_bounds, seek_to_end"]}
{"id": "C63", "title": "The printed text shows what the accessors return", "statement": "In the text printed by Display for Tag, the values found under the name of a field (what follows `name: `, or the indented lines below `names:`) are exactly the values the accessor of the field returns; flags are listed exactly if set; every freeform entry is listed with one line per value; the last line is the file type.", "quantifier": "all tags, all escape functions for strings without line breaks", "why_tests_cant": "All tags and values; tests print one tag. Fields that are silently omitted or imitated by the text of another field only show for unusual values.", "anchors": ["src/tag/mod.rs:32-83: Display for Tag", "proc/src/lib.rs: format_*", "src/tag/genre.rs:202: format_genres", "src/tag/tuple.rs:91,187", "src/tag/readonly.rs"]}
{"id": "C64", "title": "Printed durations, sizes and bitrates", "statement": "In the text of a tag without line breaks, the printed duration is the duration rounded down to the printed unit (ns, µs, ms, or seconds written as s, m:ss or h:mm:ss with two digits below a larger unit), so durations printed alike differ by less than the unit; image sizes are rounded down to bytes, KiB or MiB; bitrates are in units of 1024 bit/s.", "quantifier": "all durations, image sizes and bitrates, all tags without line breaks", "why_tests_cant": "All 2^64 durations, including the boundaries between units.", "anchors": ["src/tag/readonly.rs:19-91", "src/tag/mod.rs:216-248: format_artworks"]}
{"id": "C65", "title": "Printed identifiers are unambiguous", "statement": "Different identifiers are printed differently.", "quantifier": "all identifiers", "why_tests_cant": "All pairs of identifiers; ambiguity only arises from separators inside the parts.", "anchors": ["src/atom/ident.rs:208-212,242-246,285-292"]}
{"id": "C66", "title": "Path functions touch the named file only", "statement": "read_from_path and write_to_path on a missing path are I/O errors and create nothing; without permission nothing changes; writing or dumping to a path changes the bytes of no other file, whatever the outcome, also over whole programs; dump_to_path replaces the complete content.", "quantifier": "all file systems, paths (several names per file), tags, file contents, programs of loads, edits, saves and dumps of any length, whether or not they fail", "why_tests_cant": "Programs of any length on file systems with any links and arbitrary file contents, including all failures.", "anchors": ["src/tag/mod.rs:98-101: read_from_path", "src/tag/mod.rs:111-114: write_to_path", "src/tag/mod.rs:122-125: dump_to_path"]}
{"id": "C67", "title": "Programs of loads, edits, saves and dumps refine a store of tags", "statement": "A program that loads, edits, saves and dumps tags behaves like one on a map from files to tags in which saving replaces the items of one file and keeps its file type and audio information: all steps succeed, every file reads as the map says, other files are unchanged; and a file that was saved any number of times consists of the bytes a single save of the last items produces.", "quantifier": "all programs whose saves fit (C41, C48) and whose dumps are storable (C29), all well-formed files, all environments chosen per step", "why_tests_cant": "Interleavings of any length over any number of files and names; drift would only show after many saves.", "anchors": ["src/tag/mod.rs:93-126", "src/atom/mod.rs: write_tag_to, read_tag_from, dump_tag_to"]}
{"id": "C68", "title": "Identifiers are compared by what they denote", "statement": "idents_match holds of two identifiers of any form (Fourcc, FreeformIdent, DataIdent) exactly if they denote the same identifier; the == used by the tag functions agrees; and it holds exactly if values stored under one are found under the other.", "quantifier": "all pairs of identifiers in all forms, all tags and values", "why_tests_cant": "All pairs of identifiers of all forms, and all tags.", "anchors": ["src/atom/ident.rs:161-163: idents_match", "src/atom/ident.rs:183-190,223-230: PartialEq"]}
{"id": "C69", "title": "Kinds of values follow the stored type code", "statement": "For a value stored with a type code and bytes in a file: every is_* predicate asks for the type code(s) of its kind, every getter returns the stored bytes or the text they encode exactly for these codes, images convert to values and back without loss, and mutation through references keeps the type code and other kinds.", "quantifier": "all values, byte strings, texts and mutating functions", "why_tests_cant": "All values and all mutations.", "anchors": ["src/atom/data.rs:150-363", "src/atom/data.rs:120-128: From<Img<T>>", "src/types.rs:376-424"]}
{"id": "C70", "title": "Everything read is stored in the input", "statement": "Whatever bytes are read: if read_from succeeds, the file type, every identifier, every value with its kind, the duration, the bitrates, the sample rate and the channel configuration of the tag are stored in atoms and descriptors found in the input; nothing is invented. With overflow checks the duration is exactly that of a movie header.", "quantifier": "all byte strings (well-formed or not), start positions, builds", "why_tests_cant": "All byte strings, including every malformed file.", "anchors": ["src/atom/mod.rs:189-260: AtomData::parse", "src/atom/data.rs:418-478", "src/atom/mvhd.rs:20-70", "src/atom/mp4a.rs", "src/atom/ftyp.rs"]}
{"id": "C71", "title": "What is read is not larger than the input, and can be stored again", "statement": "The items of a tag read from any input take less space than the input when they are stored; so a tag read from any input can be dumped or saved to any well-formed file with a bounded size, and reading the result returns exactly the items read.", "quantifier": "all byte strings with sane 64 bit sizes, start positions, builds, target files", "why_tests_cant": "All byte strings as source, all well-formed files as target.", "anchors": ["src/atom/mod.rs:189-260: AtomData::parse", "src/atom/ilst.rs:15-70", "src/atom/mod.rs:356-528: write_tag_to", "src/atom/mod.rs:530-547: dump_tag_to"]}
{"id": "C72", "title": "The behaviour of the reader does not change what is read", "statement": "read_from through any Read + Seek implementation — returning any number of bytes per call, being interrupted, failing in any call — returns what reading the same content from memory returns, or ErrorKind::Io if a call failed; no failure is swallowed and no other tag is ever returned. The search of write_to has the same property, and if it fails the file is as before.", "quantifier": "all contents, start positions, builds, and all behaviours of the reader in every single call", "why_tests_cant": "All behaviours of the reader in every call: short reads, interruptions and failures in any combination.", "anchors": ["src/atom/mod.rs:299-353: read_tag_from", "src/atom/mod.rs:356-454: write_tag_to", "src/atom/data.rs:437-504: ReadData", "src/atom/head.rs:101-175"]}
{"id": "C73", "title": "Saving to any input touches nothing in front of the movie atom", "statement": "write_to on arbitrary bytes changes no byte in front of the first place where a movie atom may begin: neither on success, nor on an error or panic, nor when I/O calls fail, nor when the process is stopped at any point.", "quantifier": "all byte strings, start positions, tags, builds, I/O faults, crash points", "why_tests_cant": "All byte strings, not only well-formed files, times all failures and all points at which the process may stop.", "anchors": ["src/atom/mod.rs:356-528: write_tag_to", "src/atom/moov.rs:66-90: Moov::find_atom"]}
{"id": "C74", "title": "Tagging a file before it is complete", "statement": "Let the end of a well-formed file be missing: a part of the content of an atom behind the movie atom and all atoms after it, but no mdat entirely. Then write_to succeeds, the items can be read back, and appending the missing bytes yields exactly the file that writing the tag to the complete file yields. If the file ends inside of the head of such an atom, write_to reports ErrorKind::Io and changes nothing.", "quantifier": "all well-formed files, preceding bytes, places of the cut behind the movie atom, items, builds", "why_tests_cant": "All files and all places at which they may be cut off.", "anchors": ["src/atom/mod.rs:356-454: write_tag_to, search", "src/atom/head.rs:101-175", "src/atom/mdat.rs:1-25", "src/atom/mod.rs:456-528: write_tag_to, moving data"]}
{"id": "C75", "title": "Debug and release builds agree", "statement": "Unless the build with overflow checks panics, the build without them does exactly the same: read_from returns the same tag or error, write_to reports the same, issues the same calls in the same order and leaves the same file, dump_to produces the same bytes.", "quantifier": "all byte strings, start positions, tags, machines", "why_tests_cant": "All byte strings; a test suite is run in one build.", "anchors": ["src/atom/mod.rs:299-353: read_tag_from", "src/atom/mod.rs:356-528: write_tag_to", "src/atom/head.rs:11-53: Size", "src/atom/head.rs:184-225: AtomBounds"]}
{"id": "C76", "title": "Files with several movie atoms", "statement": "If there are several movie atoms, write_to puts the items into the last one and touches nothing in front of it; read_from returns the content of the first one. So whatever is written, reading returns what it returned before.", "quantifier": "all files with any number of movie atoms (at least two) at any places, preceding bytes, tags, builds", "why_tests_cant": "All numbers, places and contents of movie atoms.", "anchors": ["src/atom/mod.rs:299-353: read_tag_from", "src/atom/mod.rs:356-388: write_tag_to, search"]}
{"id": "C77", "title": "Malformed chunk offset tables are reported", "statement": "If media data follows the movie atom and a chunk offset table is malformed (its version is not 0, or its size does not match the number of entries), write_to fails with the unknown version or with ErrorKind::Parsing. It leaves the file with exactly the tables in front of the malformed one adjusted, as long as before, untouched in front of the movie atom, and with the same tag. If no table is in front of the malformed one, the file is unchanged. Of several tables of a kind, or of several atoms of a kind in a track, only the last one counts; writing succeeds exactly if none of the tables that count is malformed.", "quantifier": "all well-formed files with arbitrary tables, preceding bytes, items, builds", "why_tests_cant": "All sizes, contents and places of tables, among any number of tracks.", "anchors": ["src/atom/stco.rs:17-44: Stco::parse_atom", "src/atom/co64.rs:17-44: Co64::parse_atom", "src/atom/mod.rs:458-489: write_tag_to, chunk offsets"]}
{"id": "C78", "title": "What the search accepts", "statement": "On arbitrary input, the search of write_to succeeds and ends at the end of the input exactly if the input is a file: atoms fill it, ftyp first, at least one moov, and the containers in moov down to the chunk offset tables are filled with atoms as well. There is only one way to read input as such a file. On other input writing fails and does nothing, unless the last visited atom runs past the end. So if writing succeeds on arbitrary input and no atom runs past the end, what is written is what the claims about well-formed files say.", "quantifier": "all byte strings whose 64 bit sizes are at least 16 and below 2^63, start positions, items, builds", "why_tests_cant": "All byte strings; the converse direction (everything accepted is well-formed) cannot be tested at all.", "anchors": ["src/atom/mod.rs:356-388: write_tag_to, search", "src/atom/head.rs:101-175: parse_head, find_bounds", "src/atom/moov.rs:66-90: Moov::find_atom"]}
{"id": "C79", "title": "Damage inside moov does not spread", "statement": "If the atoms of the top level fill the input, exactly one of them is moov, and writing succeeds, then the other atoms are unchanged; and input that could be read can be read afterwards.", "quantifier": "all byte strings made of top level atoms with arbitrary contents, items, builds", "why_tests_cant": "All contents of the movie atom, including sizes that do not fit their container.", "anchors": ["src/atom/mod.rs:356-528: write_tag_to", "src/atom/head.rs:160-175: find_bounds", "src/atom/udta.rs: Udta::find_atom"]}
{"id": "C80", "title": "The items that are read are those of the movie atom", "statement": "If the input is made of top level atoms and reading a tag succeeds, then the content of the movie atom is well-formed and the items of the tag are those of its last ilst in the last meta in the last udta, merged by identifier; nothing else in the input contributes items.", "quantifier": "all byte strings made of top level atoms with arbitrary contents whose 64 bit sizes are at least 16 and below 2^63, start positions, builds", "why_tests_cant": "All contents of the movie atom, including sizes that do not fit their container; the direction from success to well-formedness cannot be tested.", "anchors": ["src/atom/mod.rs:299-353: read_tag_from", "src/atom/moov.rs:14-36: Moov::parse_atom", "src/atom/ilst.rs:24-52: Ilst::parse_atom", "src/atom/mod.rs:189-258: AtomData::parse"]}
{"id": "C81", "title": "Reading after writing to any readable input", "statement": "If a tag could be read from the input, and writing another tag to it succeeds, then reading the result gives the written items, with the file type and the audio information that were read before.", "quantifier": "all byte strings made of top level atoms, one of them moov, with arbitrary contents whose 64 bit sizes are at least 16 and below 2^63; start positions, items, builds", "why_tests_cant": "All byte strings from which a tag can be read, not just those that are valid files.", "anchors": ["src/atom/mod.rs:299-353: read_tag_from", "src/atom/mod.rs:356-528: write_tag_to", "src/atom/mvhd.rs: Mvhd::parse_atom", "src/atom/head.rs:220-225: seek_to_end"]}
{"id": "C82", "title": "What the typed setters store", "statement": "Every typed setter leaves exactly one item with the identifier, and what is written for it is, byte for byte: size, identifier, one data atom per value with type code, zero locale and content. Texts: UTF-8, type 1. Flags: byte 1, type 21. Numbers: two or four bytes, most significant first, type 21. Images: type 13, 14 or 27. Media types and ratings: the documented byte, type 0. Genre codes: two bytes, type 0. Track and disc: two zero bytes, number, total, type 0; updating an existing value replaces only these four bytes, keeps its type and fills it up with zeros.", "quantifier": "all tags without duplicate identifiers, identifiers, texts, numbers, images, stored values", "why_tests_cant": "All values and all earlier contents of the tag; tests that set and then get cannot see a format that is wrong in both directions.", "anchors": ["proc/src/lib.rs:50-292: generated setters", "src/tag/tuple.rs:32-65, 197-217: track and disc", "src/tag/genre.rs:109-130: standard genres", "src/types.rs:7-31, 77-171: codes", "src/tag/mod.rs:191-208, 266-299: artwork, media type, advisory rating", "src/atom/mod.rs:261-295: AtomData::write", "src/atom/data.rs:366-415: Data::write_typed"]}
{"id": "C83", "title": "Errors of reading say where and why", "statement": "Every error of reading a tag is described by the identifiers of the atoms it occurred in, from the outermost one on, and the text that belongs to its kind, as given by a fixed catalogue; every atom that is named is in the file, and so is the size, version, type code or item the error complains about. Every entry of the catalogue is the error of some file. Apart from the descriptions nothing changes.", "quantifier": "all byte strings, start positions, builds, numbers of iterations; all entries of the catalogue", "why_tests_cant": "All malformed inputs; tests look at a few error kinds and never at the descriptions.", "anchors": ["src/error.rs:42-107: Error", "src/atom/mod.rs:85-130: ParseAtom, FindAtom, WriteAtom", "src/atom/head.rs:101-175: parse_head, parse_full_head", "src/atom/mod.rs:189-258, 299-353: AtomData::parse, read_tag_from", "src/atom/data.rs:418-490: Data::parse"]}
{"id": "C84", "title": "Errors of writing say where and why", "statement": "Every error of writing a tag, also if calls to the file fail, is described as one of: an error of the search with the path of the atom; an error of a chunk offset table with its name alone; a failed write of the new item list, with the new meta and udta around it; nothing for other failed calls. Errors of writing never name an atom outside of the item list, because what is in front of it stays in the buffer. Each of these errors occurs; for every file and item list larger than the buffer there is a call whose failure is reported as an error of the item list.", "quantifier": "all byte strings, start positions, items, failing calls behind the search, buffers of at least 128 bytes, builds; all entries of the catalogue", "why_tests_cant": "All inputs and all points of failure of the file system.", "anchors": ["src/error.rs:42-107: Error", "src/atom/mod.rs:85-130: ParseAtom, FindAtom, WriteAtom", "src/atom/mod.rs:356-528: write_tag_to", "src/atom/stco.rs:9-63: Stco", "src/atom/co64.rs:9-63: Co64"]}
{"id": "C85", "title": "Dumping to a writer with limited room", "statement": "Dumping a tag to a writer with room for n bytes stores the first n bytes of the dumped file; it succeeds if and only if the file has at most n bytes, and otherwise the error names the atoms the first missing byte belongs to.", "quantifier": "all tags with items that can be stored, sizes of the room, builds", "why_tests_cant": "Every size of the room for every tag.", "anchors": ["src/atom/mod.rs:531-547: dump_tag_to", "src/atom/mod.rs:115-127: WriteAtom::write", "src/atom/hdlr.rs:31-35, src/atom/ilst.rs:55-61, src/atom/meta.rs:45-55, src/atom/udta.rs:35-41, src/atom/moov.rs:39-49"]}
{"id": "C86", "title": "Printed errors are unambiguous", "statement": "The printed text of an error tells its kind, with the identifier, version or code in it, and (with the printed text of the contained std error given) its description. The description tells the atoms the error occurred in and what went wrong. All errors other than I/O errors have a description that is not empty.", "quantifier": "all pairs of errors; all inputs of reading and writing", "why_tests_cant": "All pairs of errors, with arbitrary identifiers and codes.", "anchors": ["src/error.rs:8-107: ErrorKind, Error", "src/atom/mod.rs:85-130: ParseAtom, FindAtom, WriteAtom"]}
{"id": "C87", "title": "Number of calls to the reader", "statement": "Reading a tag makes at most a fixed number of calls per byte to the reader, not counting interrupted ones, as long as no 64 bit size in the input is smaller than its head or at least 2^63; so does the part of writing that only reads.", "quantifier": "all byte strings with sane 64 bit sizes, start positions, behaviours of the reader in every call, builds", "why_tests_cant": "A bound on the cost of all inputs and all readers; tests use a few well-formed files.", "anchors": ["src/atom/mod.rs:299-353: read_tag_from", "src/atom/mod.rs:356-454: write_tag_to", "src/atom/mp4a.rs:73-243: Mp4a::parse_atom", "src/atom/head.rs:101-225: parse_head, find_bounds, seek_to_end"]}
{"id": "C88", "title": "Memory requested because of sizes in the input", "statement": "The buffers that reading a tag requests because of sizes found in the input are, taken together, at most a fixed multiple of the input, as long as no 64 bit size in the input is smaller than its head or at least 2^63; so are those requested by the part of writing that only reads and by reading a chunk offset table.", "quantifier": "all byte strings with sane 64 bit sizes, start positions, behaviours of the reader in every call, builds", "why_tests_cant": "A bound on the memory requested for all inputs, including failing reads; tests use a few well-formed files and do not observe allocations.", "anchors": ["src/atom/data.rs:467-490: read_u8_vec, read_utf16", "src/atom/mod.rs:448-454: moved data", "src/atom/stco.rs:31: table", "src/atom/co64.rs:31: table", "src/atom/ftyp.rs:7-16: Ftyp::parse"]}
{"id": "C89", "title": "The tag depends only on the file type and the movie atom", "statement": "A tag that is read from input made of atoms is also read from any other input that begins with the same file type atom and has the same movie atom: what precedes the start, the other atoms (in particular the media data) and what follows the movie atom do not matter.", "quantifier": "all pairs of inputs made of atoms with the same file type and movie atom, start positions, builds", "why_tests_cant": "A relation between two executions on any two inputs; tests compare fixed files.", "anchors": ["src/atom/mod.rs:299-353: read_tag_from", "src/atom/moov.rs:14-36: Moov::parse_atom", "src/atom/head.rs:101-225: parse_head, find_bounds, seek_to_end", "src/atom/mvhd.rs:16-65: Mvhd::parse_atom"]}
{"id": "C90", "title": "An interrupted write leaves the old or the new tag", "statement": "If write_to is stopped between two system calls, or a system call fails, reading the file that is left behind yields the tag that was there before or the tag that was being written, nothing else.", "quantifier": "all well-formed files, all tags, all crash points, all schedules of failing calls", "why_tests_cant": "All crash points, all failing calls and all layouts; a test interrupts one write at one place.", "anchors": ["src/atom/mod.rs:356-526: write_tag_to (order of patching, set_len, item list, moved data)", "std: BufWriter"]}
{"id": "C91", "title": "Saving a tag with UTF-16 text changes nothing but the item list", "statement": "When a tag with UTF-16 texts is saved to a well-formed file, every byte outside of the item list is the one that saving any other tag of the same size leaves there, all other top level atoms are kept, the file ends with its last atom, and saving what was read changes nothing.", "quantifier": "all well-formed files, all tags with values of any kind, all prefixes, builds, buffer capacities", "why_tests_cant": "All layouts of the file and all texts; the surplus bytes are overwritten or not depending on how much data follows.", "anchors": ["src/atom/data.rs:128-148, 386-412: Data::len, Data::write_raw", "src/atom/mod.rs:356-526: write_tag_to (the moved data is written at its computed position)", "src/atom/ilst.rs: Ilst::size, Ilst::write"]}
{"id": "C92", "title": "Errors of a failing reader say where it failed", "statement": "Whatever the reader does in each call, every error of reading a tag and of the search while writing names the atoms it occurred in, from the outermost one on, all of them present in the input, with a text of the documented catalogue; the descriptions change nothing else, and each of these errors does occur.", "quantifier": "all readers (any sequence of short reads, interruptions and failures), all inputs, start positions, builds, item lists", "why_tests_cant": "Every call of every run may fail; a test lets one call of one run fail.", "anchors": ["src/atom/mod.rs:85-130: FindAtom, parse and find with descriptions", "src/atom/mod.rs:299-454: read_tag_from, write_tag_to (search)", "src/atom/head.rs:101-175: parse_head, parse_full_head", "src/error.rs:42-107: Error::new", "src/atom/data.rs:437-504: ReadUtil, SeekUtil"]}
{"id": "C93", "title": "A change of the same size stays local", "statement": "If items are saved and saved again after a value has been replaced by another of the same type and size, the second save replaces the bytes of this value and changes no other byte of the file; items of the same total size change nothing outside of the item list. If the second save is interrupted anywhere, each byte of the value is the old or the new one and all other bytes are unchanged.", "quantifier": "all well-formed files, all tags, identifiers and values (without UTF-16 text), all failing or interrupted calls, all prefixes, builds, buffer capacities", "why_tests_cant": "Every byte of every file matters, also sizes and chunk offsets that are rewritten with the same number.", "anchors": ["src/atom/mod.rs: write_tag_to", "src/tag/mod.rs: Tag::set_data, write_to", "src/atom/ilst.rs, src/atom/meta.rs, src/atom/udta.rs, src/atom/moov.rs"]}
{"id": "C94", "title": "What a save costs", "statement": "A save writes exactly as many bytes as the chunk offsets (if there is media data behind the movie atom), the sizes of the at most three atoms around the item list (at most 36 bytes), the new atoms and everything behind them have together; the number of system calls is at most twice the bytes written divided by the capacity of the buffer plus a number that depends on the number of tracks alone. If calls fail, at most as many bytes are written as without failures, with at most one more call, for any bytes in the file.", "quantifier": "all well-formed files with any number of tracks and entries, all items (without UTF-16 text), all prefixes, builds, buffer capacities; failures: any bytes, all sequences of failing calls, each after any part of its data", "why_tests_cant": "A test measures one file; a flush per table entry or a second copy of the media data only shows with certain files, and no sample gives a bound for all.", "anchors": ["src/atom/mod.rs:456-526: write_tag_to (tables, sizes, new atoms, moved data)", "src/atom/stco.rs, src/atom/co64.rs: update of chunk offsets", "src/atom/mod.rs: BufWriter"]}
{"id": "C95", "title": "Code of the caller is run once per value, and a panic in it costs nothing else", "statement": "The retain functions ask the caller about every value they concern exactly once, in order, whatever effects this has. If the caller panics, the values refused so far are gone, all others are kept, no identifier occurs twice, and the panic is passed on. If an iterator panics, add_all_data keeps the old values and those yielded before; set_all_data has replaced the old values by those yielded before; a missing entry is not created.", "quantifier": "all tags, all predicates with any state that may panic at any call, all iterators that end or panic", "why_tests_cant": "A predicate may answer differently at each call and panic at any of them; index loops that remove while iterating go wrong for particular sequences of answers.", "anchors": ["src/tag/mod.rs:965-1061: retain_bytes_of, retain_strings_of, retain_images_of, retain_data_of", "src/tag/mod.rs:1091-1203: retain_bytes, retain_strings, retain_images, retain_data", "src/tag/mod.rs:1267-1338: set_all_data, add_all_data"]}
{"id": "C96", "title": "Buffering does not change what is read or saved", "statement": "Reading through std's BufReader, as read_from_path and the search of write_to do, yields what is in the file: the same tag, the same error, the same data to be moved, whatever the capacity and however the file splits its data over the calls. An error of the file is returned and none is made up. The chunk offset tables that are read while the file is being written are those in the file at that time, whatever is still in the buffer and wherever the writer left the cursor. The number of calls that reach the file and the memory requested are bounded as without a buffer. A save through a BufReader and a BufWriter that share the cursor of the file makes the same changes in the same order as one whose reader leaves the cursor anywhere; if the reader fails, exactly the first of these changes were made and the file has its old length. If calls of the writer fail as well, the save reports success only if no call of either failed and everything was written, an error of either is reported, what is in front of moov survives, and no more is written than without failures.", "quantifier": "all files below 2^63 bytes, all start positions, all capacities, all sequences of short reads, interruptions and failures of the file, all states of the buffer in front of a table, all failing calls of the writer and numbers of bytes they write before", "why_tests_cant": "What is in the buffer depends on its capacity, on all earlier reads and seeks and on how the operating system splits the data; stale bytes only show for particular distances between tables.", "anchors": ["src/tag/mod.rs:98-101: Tag::read_from_path", "src/atom/mod.rs:357-454: write_tag_to (BufReader, search, data to be moved)", "src/atom/mod.rs:459-489: write_tag_to (tables read between writes)", "src/atom/data.rs:437-504: ReadData, remaining_stream_len", "std: BufReader", "src/atom/mod.rs:456-525: write_tag_to (BufWriter)"]}
{"id": "C97", "title": "Identifier types of the caller", "statement": "The trait Ident is public. For an implementation that equals exactly the identifier it converts into, every history of operations has the result it has with an identifier of the library. For any implementation: every operation acts on the first entry that equals the identifier (remove_data_of on all of them) and leaves the entries alone it does not equal; the identifiers of all tags stay distinct exactly if the identifier equals what it converts into; what was set is found exactly if it does or an entry equalled it before. Otherwise an identifier can be entered twice; dumping and reading merges the entries, with all their values.", "quantifier": "all comparison functions and conversions, all tags, all finite histories mixing operations with identifiers of the caller and of the library", "why_tests_cant": "The tests only use the three types of the library; the claim is about every implementation of a public trait and every history.", "anchors": ["src/atom/ident.rs:152-157", "src/tag/mod.rs:497-550, 936-938, 1052-1061, 1236-1338"]}
{"id": "C98", "title": "Builds with a 32-bit usize", "statement": "For files below 2^31 bytes, everything that is read or saved successfully with a 64-bit usize is read or saved with a 32-bit one, as the same tag and the same file. With overflow checks, every save that succeeds with a 32-bit usize leaves the file a 64-bit one leaves. Where they differ: the upper bits of claimed lengths are dropped, so broken files may be read; claimed contents and tables from 2^31 bytes on panic instead of being an error; without overflow checks a save may damage the lengths in a file with a wrong item list length, where the 64-bit build panics before writing.", "quantifier": "all files below 2^31 bytes (for the second part below 2^63), all start positions, all tags, both overflow modes unless stated, all buffer capacities; panics: all files beginning with a file type atom of any claimed length", "why_tests_cant": "The tests run on 64-bit machines, with files whose lengths are right and small; the differences need lengths around 2^31 and 2^32.", "anchors": ["src/atom/data.rs:467-490: read_u8_vec, read_utf8, read_utf16", "src/atom/stco.rs:16-45", "src/atom/co64.rs:16-45", "src/atom/mod.rs:356-526: write_tag_to"]}
{"id": "C99", "title": "Short and interrupted writes", "statement": "A save to a file whose write calls take only part of what they are given, are interrupted, or fail, in any order, leaves the file as it is left when exactly the write_all calls that met an error fail after some bytes and all others write everything at once; its calls are those in parts. Without errors the outcome (also an error or a panic) and the file are those of the plain save. Success means that no call failed and everything was written, and a failing call is reported. Whatever the calls do, everything in front of moov survives and no more bytes are written than by the plain save. Stopped at any moment between or within the parts, the file is in a state in which the plain save can also leave it. Every call writes a part, sets the length, is interrupted or fails, and there are at most as many parts as bytes. Saving by path likewise; of a dump a prefix reaches the writer, all of it exactly if success is reported.", "quantifier": "all schedules of the reader's and of the writer's calls, all capacities, all files and tags; interruptions up to the iterations of the model (any number)", "why_tests_cant": "The tests save to local files, where write calls take everything and are never interrupted; the claim is about every way of splitting and repeating calls.", "anchors": ["src/atom/mod.rs:356-526: write_tag_to", "src/atom/mod.rs:530-547: dump_tag_to", "src/tag/mod.rs:111-119", "std: Write::write_all, BufWriter::flush_buf, File::set_len"]}
{"id": "C100", "title": "Repeating a failed save", "statement": "When a save has failed, or the process was stopped in its middle, saving the same tag again succeeds and leaves the file that saving it at once would have left.", "quantifier": "all schedules of failing calls and all moments (also within a call) at which a process can be stopped, any number of attempts, all well-formed files and storable tags", "why_tests_cant": "The tests never let a call fail, so no save ever meets a half-written file; which states a retry can repair needs the states of all failing schedules.", "anchors": ["src/atom/mod.rs:458-488: chunk offset tables are adjusted in place", "src/atom/mod.rs:490-504: sizes and file length", "src/atom/mod.rs:356-526: write_tag_to"]}
{"id": "C101", "title": "The example program re-encodes losslessly", "statement": "examples/string_encoding.rs, run on a well-formed file it may read and write, succeeds; afterwards the file holds the same tag with every UTF-16 text as the same text in UTF-8: same identifiers, order, number of values, other values, file type and audio information; the getters return what they did before, no UTF-16 text is left, no other file changes, and running it again changes no byte. If reading fails it panics and nothing has changed.", "quantifier": "all file systems, paths, environments (overflow checks on or off), well-formed files and contents for which the sizes of the result are within range; the statements on failures hold for arbitrary bytes", "why_tests_cant": "The example is never run by a test; reading, mutating through data_mut and saving must each be right for all values, and saving must be right for exactly those texts for which the library's UTF-16 support is not.", "anchors": ["examples/string_encoding.rs:4-15", "src/tag/mod.rs:802-808: data_mut", "src/tag/mod.rs:98-101: read_from_path", "src/tag/mod.rs:111-114: write_to_path"]}
{"id": "C102", "title": "Changes can be taken back", "statement": "If a tag is read, other tags are saved any number of times and then the tag read first is saved, then the file is the one that saving this tag alone produces, and the same tag is read again. Every byte is restored exactly if the item list that counts had the form in which the library saves it, with a handler next to it; so if the file was saved or dumped by the library before. Saves onto a dumped file are the same as dumping the last tag. Other files are not restored in general.", "quantifier": "all well-formed files, all histories of saves that fit (C41, C48) with less than 2 GiB of items each", "why_tests_cant": "All files and all histories of any length.", "anchors": ["src/atom/mod.rs: write_tag_to, dump_tag_to", "src/atom/meta.rs", "src/atom/udta.rs", "src/atom/moov.rs"]}
{"id": "C103", "title": "Printing stops at the first failure and reports it", "statement": "Printing a tag or an error delivers the text of C63 or C86 to the formatter in order, completely and once; if the formatter fails, this was the last call and an error is returned. So to_string gives the whole text and never panics, and printing to a buffer of limited size succeeds exactly if the text fits, and otherwise leaves a beginning of the text.", "quantifier": "all tags and errors, all formatters with any state and any pattern of failures, all ways in which std splits the texts", "why_tests_cant": "Formatters that fail at every possible call, for all tags.", "anchors": ["src/tag/mod.rs:32-83: Display for Tag", "src/tag/mod.rs:216-249", "src/error.rs:90-107", "src/tag/genre.rs:202-212", "src/tag/tuple.rs:91-98", "src/tag/readonly.rs:19-88", "proc/src/lib.rs:70-75, 154-164, 207-212"]}
{"id": "C104", "title": "Only the order of calls about the same identifier matters", "statement": "Two programs that make the same calls about every identifier, in the same order, leave tags with the same values under every identifier, which differ at most in the order of their entries. Dumped, they take the same number of bytes; saved to the same file, both succeed, and the files have the same length and differ at most inside the item list, which holds the same items; read again, they show the same values. If no entry is created or removed, the tags are equal. Excepted are take_genre, whose effect on custom genres depends on the standard genres, and views over all values that can be changed, which reveal the order of entries.", "quantifier": "all tags, all programs of calls of any length, all well-formed files", "why_tests_cant": "All interleavings of all programs.", "anchors": ["src/tag/mod.rs:313-1358: the methods for values", "src/tag/genre.rs:100-200", "src/tag/tuple.rs:12-190", "src/tag/mod.rs:174-301"]}
{"id": "C105", "title": "What a value costs", "statement": "A value takes its bytes and 16 more; an identifier takes 8 bytes, and a free-form identifier 24 more and the bytes of its two texts. Adding, setting and removing change the size of a tag accordingly. Dumped, a tag takes 93 bytes more than its entries. Saved to the same file, two tags give files whose lengths differ exactly as the sizes of their entries do, whatever the file contains and whatever has to be created in it; so adding a value makes the saved file longer by exactly its cost.", "quantifier": "all tags whose values are not UTF-16 texts (see C26) and take less than 4 GiB, all identifiers and values, all well-formed files", "why_tests_cant": "All combinations of tags, values and file layouts.", "anchors": ["src/atom/data.rs:132-142, 366-400: length and writing of values", "src/tag/mod.rs:936, 1236, 1301", "src/atom/mod.rs:356-528: write_tag_to", "src/atom/mod.rs:530: dump_tag_to"]}
{"id": "C106", "title": "Editing some fields of a file leaves the others as they are", "statement": "If a tag is read from a file, any calls of the API are made and the tag is saved to the file, then reading it shows every entry that no call was about as before, with all its values, in the same order, and the same file type and audio information. What an identifier has afterwards is what the calls about this identifier alone give.", "quantifier": "all well-formed files, all sequences of calls of the API of any length (the last sentence: without take_genre and the views over all values that can be changed, see C104) whose result can be saved and read (C30, C41)", "why_tests_cant": "All combinations of files, calls and identifiers.", "anchors": ["src/tag/mod.rs: data_of, set_data, add_data, retain_data_of, take_data_of", "src/atom/mod.rs:299-353: read_tag_from", "src/atom/mod.rs:356-528: write_tag_to"]}
{"id": "C107", "title": "Editing a file in several sittings or in one", "statement": "A file that is edited in several sittings, in each of which its tag is read, changed by any calls and saved, has in the end exactly the bytes it would have if all calls had been made in one sitting, and the tag read from it is the one that all calls together give.", "quantifier": "all well-formed files, any number of sittings, all sequences of calls whose intermediate results can be saved and read (C30, C41: no UTF-16 texts, less than 2 GiB of items)", "why_tests_cant": "Unboundedly many sittings and calls on all files; equality of every byte.", "anchors": ["src/tag/mod.rs:93-107: read_from, write_to", "src/atom/mod.rs:299-353: read_tag_from", "src/atom/mod.rs:356-528: write_tag_to"]}
{"id": "C108", "title": "The error behind an error can be found", "statement": "If an error of the library contains an error of std (of the reader or writer, or of decoding a text), then that error is available through std::error::Error::source.", "quantifier": "all inputs, all behaviours of readers and writers", "why_tests_cant": "The failure can occur in any call of any reader or writer on any input.", "anchors": ["src/error.rs:10-39: ErrorKind", "src/error.rs:56-63: impl error::Error for Error"]}
