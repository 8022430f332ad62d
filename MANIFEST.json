{
 "claims": [
  {
   "property": "C01",
   "status": "proved",
   "theorems": [
    "Mp4.Props.C01_unique_identifiers",
    "Mp4.Props.C01_unique_positions"
   ],
   "note": ""
  },
  {
   "property": "C02",
   "status": "proved",
   "theorems": [
    "Mp4.Props.C02_set_all",
    "Mp4.Props.C02_set",
    "Mp4.Props.C02_ident_forms"
   ],
   "note": ""
  },
  {
   "property": "C03",
   "status": "proved",
   "theorems": [
    "Mp4.Props.C03_add_all",
    "Mp4.Props.C03_add"
   ],
   "note": ""
  },
  {
   "property": "C04",
   "status": "proved",
   "theorems": [
    "Mp4.Props.C04_remove",
    "Mp4.Props.C04_remove_entry",
    "Mp4.Props.C04_remove_bytes",
    "Mp4.Props.C04_remove_strings",
    "Mp4.Props.C04_remove_images"
   ],
   "note": ""
  },
  {
   "property": "C05",
   "status": "proved",
   "theorems": [
    "Mp4.Props.C05_take_returns",
    "Mp4.Props.C05_take_removes",
    "Mp4.Props.C05_take_entry",
    "Mp4.Props.C05_take_kinds"
   ],
   "note": ""
  },
  {
   "property": "C06",
   "status": "proved",
   "theorems": [
    "Mp4.Props.C06_retain_of",
    "Mp4.Props.C06_retain_of_entries",
    "Mp4.Props.C06_retain",
    "Mp4.Props.C06_retain_entries",
    "Mp4.Props.C06_retain_kinds_of",
    "Mp4.Props.C06_retain_kinds",
    "Mp4.Props.C06_onlyKind"
   ],
   "note": ""
  },
  {
   "property": "C07",
   "status": "proved",
   "theorems": [
    "Mp4.Props.C07_refines_ordered_map",
    "Mp4.Props.C07_from_default"
   ],
   "note": ""
  },
  {
   "property": "C08",
   "status": "proved",
   "theorems": [
    "Mp4.Props.C08_data",
    "Mp4.Props.C08_data_of",
    "Mp4.Props.C08_kinds",
    "Mp4.Props.C08_take",
    "Mp4.Props.C08_is_empty"
   ],
   "note": ""
  },
  {
   "property": "C09",
   "status": "proved",
   "theorems": [
    "Mp4.Props.C09_data_mut_of",
    "Mp4.Props.C09_entries",
    "Mp4.Props.C09_typed_views",
    "Mp4.Props.C09_typed_effect"
   ],
   "note": ""
  },
  {
   "property": "C10",
   "status": "proved",
   "theorems": [
    "Mp4.Props.C10_kinds",
    "Mp4.Props.C10_payload",
    "Mp4.Props.C10_image_roundtrip"
   ],
   "note": ""
  },
  {
   "property": "C11",
   "status": "proved",
   "theorems": [
    "Mp4.Props.C11_get_set",
    "Mp4.Props.C11_get_remove",
    "Mp4.Props.C11_take",
    "Mp4.Props.C11_others"
   ],
   "note": ""
  },
  {
   "property": "C12",
   "status": "proved",
   "theorems": [
    "Mp4.Props.C12_set",
    "Mp4.Props.C12_add",
    "Mp4.Props.C12_first",
    "Mp4.Props.C12_take_remove",
    "Mp4.Props.C12_others"
   ],
   "note": ""
  },
  {
   "property": "C13",
   "status": "proved",
   "theorems": [
    "Mp4.Props.C13_get",
    "Mp4.Props.C13_set_remove"
   ],
   "note": ""
  },
  {
   "property": "C14",
   "status": "proved",
   "theorems": [
    "Mp4.Props.C14_get_set",
    "Mp4.Props.C14_get_set_u16_u32",
    "Mp4.Props.C14_get"
   ],
   "note": ""
  },
  {
   "property": "C15",
   "status": "proved",
   "theorems": [
    "Mp4.Props.C15_documented",
    "Mp4.Props.C15_documented_handwritten",
    "Mp4.Props.C15_constants",
    "Mp4.Props.C15_constants_distinct",
    "Mp4.Props.C15_distinct",
    "Mp4.Props.C15_names",
    "Mp4.Props.C15_display_injective",
    "Mp4.Props.C15_non_interference"
   ],
   "note": "The table of generated accessors is finite; it is checked as a whole and lifted to all tags by C15_non_interference."
  },
  {
   "property": "C16",
   "status": "proved",
   "theorems": [
    "Mp4.Props.C16_set",
    "Mp4.Props.C16_add",
    "Mp4.Props.C16_take_remove",
    "Mp4.Props.C16_others"
   ],
   "note": ""
  },
  {
   "property": "C17",
   "status": "proved",
   "theorems": [
    "Mp4.Props.C17_get_set",
    "Mp4.Props.C17_codes_distinct",
    "Mp4.Props.C17_get",
    "Mp4.Props.C17_remove"
   ],
   "note": ""
  },
  {
   "property": "C18",
   "status": "proved",
   "theorems": [
    "Mp4.Props.C18_get_set",
    "Mp4.Props.C18_get",
    "Mp4.Props.C18_remove"
   ],
   "note": ""
  },
  {
   "property": "C19",
   "status": "partial",
   "theorems": [
    "Mp4.Props.C19_pair",
    "Mp4.Props.C19_set_pair",
    "Mp4.Props.C19_set_number",
    "Mp4.Props.C19_set_total",
    "Mp4.Props.C19_set_total_keeps_number_partial",
    "Mp4.Props.C19_refuted",
    "Mp4.Props.C19_others",
    "Mp4.Props.C19_track_disc",
    "Mp4.Props.C19_other_kinds",
    "Mp4.Props.C19_iff"
   ],
   "note": "All clauses proved, except that set_total_* preserves the number when the stored value has exactly three bytes: false of the code (C19_refuted). Exactly: it fails if and only if the third byte of such a value is not zero (C19_iff)."
  },
  {
   "property": "C20",
   "status": "partial",
   "theorems": [
    "Mp4.Props.C20_remove_number",
    "Mp4.Props.C20_remove_total",
    "Mp4.Props.C20_remove_total_keeps_number_partial",
    "Mp4.Props.C20_remove_pair",
    "Mp4.Props.C20_refuted_entry_remains",
    "Mp4.Props.C20_entry_always_remains",
    "Mp4.Props.C20_refuted_preserve",
    "Mp4.Props.C20_iff",
    "Mp4.Props.C20_entry_iff"
   ],
   "note": "False of the code: an all-zero entry remains (C20_refuted_entry_remains, C20_entry_always_remains), and removing the total of a three byte value creates a number (C20_refuted_preserve). The other clauses are proved. Exactly: C20_iff, C20_entry_iff."
  },
  {
   "property": "C21",
   "status": "proved",
   "theorems": [
    "Mp4.Props.C21_set_add",
    "Mp4.Props.C21_get",
    "Mp4.Props.C21_names",
    "Mp4.Props.C21_remove"
   ],
   "note": ""
  },
  {
   "property": "C22",
   "status": "partial",
   "theorems": [
    "Mp4.Props.C22_genres",
    "Mp4.Props.C22_genre_first_partial",
    "Mp4.Props.C22_refuted",
    "Mp4.Props.C22_iff"
   ],
   "note": "genres() is proved; genre() = first of genres() is false when an invalid standard code precedes a valid one (C22_refuted); proved otherwise. Exactly: C22_iff (it also holds if the first custom genre happens to have the name of the first known standard genre)."
  },
  {
   "property": "C23",
   "status": "partial",
   "theorems": [
    "Mp4.Props.C23_set_remove",
    "Mp4.Props.C23_add",
    "Mp4.Props.C23_take_genres",
    "Mp4.Props.C23_take_genre_returns",
    "Mp4.Props.C23_take_genre_removes_partial",
    "Mp4.Props.C23_refuted",
    "Mp4.Props.C23_others",
    "Mp4.Props.C23_iff"
   ],
   "note": "All clauses proved, except that take_genre removes the custom genres when a standard genre is present: false of the code (C23_refuted). Exactly: C23_iff."
  },
  {
   "property": "C24",
   "status": "proved",
   "theorems": [
    "Mp4.Props.C24_roundtrip",
    "Mp4.Props.C24_accept_iff",
    "Mp4.Props.C24_injective"
   ],
   "note": ""
  },
  {
   "property": "C25",
   "status": "proved",
   "theorems": [
    "Mp4.Props.C25_roundtrip",
    "Mp4.Props.C25_accept_iff"
   ],
   "note": ""
  },
  {
   "property": "C26",
   "status": "partial",
   "theorems": [
    "Mp4.Props.C26_refuted",
    "Mp4.Props.C26_partial",
    "Mp4.Props.C26_never",
    "Mp4.Props.C26_half",
    "Mp4.Props.C26_torn",
    "Mp4.Props.C26_half_basic"
   ],
   "note": "False of the code: UTF-16 text is cut in half (C26_refuted). Exactly: no tag with a nonempty UTF-16 text ever survives (C26_never), every other one does (C26_partial, C30_iff). What is left of such a text in last place: the first half of its UTF-16 units (C26_half), or an error if that cuts a surrogate pair (C26_torn)."
  },
  {
   "property": "C27",
   "status": "partial",
   "theorems": [
    "Mp4.Props.C27_len_partial",
    "Mp4.Props.C27_refuted",
    "Mp4.Props.C27_refuted_iff",
    "Mp4.Props.C27_isEmpty",
    "Mp4.Props.C27_item",
    "Mp4.Props.C27_item_len"
   ],
   "note": "False of the code for UTF-16 text, for which twice as many bytes are written (C27_refuted, C27_refuted_iff). Proved for all other values."
  },
  {
   "property": "C28",
   "status": "proved",
   "theorems": [
    "Mp4.Props.C28_dump",
    "Mp4.Props.C28_wellformed",
    "Mp4.Props.C28_layout"
   ],
   "note": ""
  },
  {
   "property": "C29",
   "status": "proved",
   "theorems": [
    "Mp4.Props.C29_roundtrip",
    "Mp4.Props.C29_roundtrip_anywhere",
    "Mp4.Props.C29_injective"
   ],
   "note": ""
  },
  {
   "property": "C30",
   "status": "partial",
   "theorems": [
    "Mp4.Props.C30_partial",
    "Mp4.Props.C30_refuted_empty",
    "Mp4.Props.C30_refuted_free",
    "Mp4.Props.C30_refuted_utf16",
    "Mp4.Props.C30_iff"
   ],
   "note": "False of the code: entries without values make the dump unreadable, entries called 'free' are lost, UTF-16 text is cut (C30_refuted_*). C30_iff says exactly which tags survive. C30_partial says what is read back in all cases other than empty entries and UTF-16 text."
  },
  {
   "property": "C31",
   "status": "proved",
   "theorems": [
    "Mp4.Props.C31_read",
    "Mp4.Props.C31_read_prefix",
    "Mp4.Props.C31_unique"
   ],
   "note": ""
  },
  {
   "property": "C32",
   "status": "proved",
   "theorems": [
    "Mp4.Props.C32_merge",
    "Mp4.Props.C32_freeform"
   ],
   "note": ""
  },
  {
   "property": "C33",
   "status": "proved",
   "theorems": [
    "Mp4.Props.C33_unknown_atoms",
    "Mp4.Props.C33_similar",
    "Mp4.Props.C33_top",
    "Mp4.Props.C33_insert_moov",
    "Mp4.Props.C33_insert_udta",
    "Mp4.Props.C33_insert_meta",
    "Mp4.Props.C33_items",
    "Mp4.Props.C33_stsd"
   ],
   "note": ""
  },
  {
   "property": "C34",
   "status": "proved",
   "theorems": [
    "Mp4.Props.C34_empty",
    "Mp4.Props.C34_no_moov_children"
   ],
   "note": ""
  },
  {
   "property": "C35",
   "status": "proved",
   "theorems": [
    "Mp4.Props.C35_duration_v0",
    "Mp4.Props.C35_duration_v1",
    "Mp4.Props.C35_audio"
   ],
   "note": ""
  },
  {
   "property": "C36",
   "status": "proved",
   "theorems": [
    "Mp4.Props.C36_tables",
    "Mp4.Props.C36_read"
   ],
   "note": ""
  },
  {
   "property": "C37",
   "status": "proved",
   "theorems": [
    "Mp4.Props.C37_no_ftyp",
    "Mp4.Props.C37_no_ftyp_write",
    "Mp4.Props.C37_no_moov",
    "Mp4.Props.C37_no_moov_write",
    "Mp4.Props.C37_defect"
   ],
   "note": ""
  },
  {
   "property": "C38",
   "status": "partial",
   "theorems": [
    "Mp4.Props.C38_partial",
    "Mp4.Props.C38_partial_write",
    "Mp4.Props.C38_refuted",
    "Mp4.Props.C38_sane",
    "Mp4.Props.C38_sane_write",
    "Mp4.Props.C38_slow"
   ],
   "note": "Proved for builds with overflow checks, for reading and writing and all inputs. False without overflow checks: an atom with a 64 bit size of 0 is read forever (C38_refuted). Proved for every build and all byte strings whose 64 bit sizes are at least 16 and less than 2^63, with the length of the input as bound on the iterations of every loop (C38_sane, C38_sane_write); without this condition even checked builds take 2^57 iterations on 48 bytes (C38_slow)."
  },
  {
   "property": "C39",
   "status": "partial",
   "theorems": [
    "Mp4.Props.C39_refuted",
    "Mp4.Props.C39_refuted_alloc",
    "Mp4.Props.C39_refuted_short_data",
    "Mp4.Props.C39_refuted_duration",
    "Mp4.Props.C39_partial",
    "Mp4.Props.C39_causes",
    "Mp4.Props.C39_causes_checked"
   ],
   "note": "False of the code in every build (C39_refuted: timescale 0; C39_refuted_alloc: huge ftyp; C39_refuted_short_data) and in builds with overflow checks (C39_refuted_duration). Proved for well-formed files, also when cut off anywhere; defective files fail with an error by C37_defect. For arbitrary byte strings the causes listed in Spec/Sane.lean are the only ones (C39_causes, C39_causes_checked)."
  },
  {
   "property": "C40",
   "status": "proved",
   "theorems": [
    "Mp4.Props.C40_sizes",
    "Mp4.Props.C40_items",
    "Mp4.Props.C40_stsd",
    "Mp4.Props.C40_esds"
   ],
   "note": ""
  },
  {
   "property": "C41",
   "status": "proved",
   "theorems": [
    "Mp4.Props.C41_injective",
    "Mp4.Props.C41_unchanged",
    "Mp4.Props.C41_write_read"
   ],
   "note": ""
  },
  {
   "property": "C42",
   "status": "proved",
   "theorems": [
    "Mp4.Props.C42_info"
   ],
   "note": ""
  },
  {
   "property": "C43",
   "status": "proved",
   "theorems": [
    "Mp4.Props.C43_tree",
    "Mp4.Props.C43_small"
   ],
   "note": ""
  },
  {
   "property": "C44",
   "status": "proved",
   "theorems": [
    "Mp4.Props.C44_toplevel"
   ],
   "note": ""
  },
  {
   "property": "C45",
   "status": "partial",
   "theorems": [
    "Mp4.Props.C45_exact",
    "Mp4.Props.C45_iff",
    "Mp4.Props.C45_partial",
    "Mp4.Props.C45_refuted_order",
    "Mp4.Props.C45_refuted_sides",
    "Mp4.Props.C45_refuted_wrap"
   ],
   "note": "False of the code: tracks behind the user data are not adjusted (C45_refuted_order), offsets into media data in front of moov are shifted when there is also media data behind it (C45_refuted_sides), 32 bit offsets wrap (C45_refuted_wrap). Proved for all other files (C45_partial). For all files: where all media data is moved and what becomes of every offset (C45_exact), and which offsets are right (C45_iff)."
  },
  {
   "property": "C46",
   "status": "proved",
   "theorems": [
    "Mp4.Props.C46_udta",
    "Mp4.Props.C46_meta",
    "Mp4.Props.C46_ilst"
   ],
   "note": ""
  },
  {
   "property": "C47",
   "status": "proved",
   "theorems": [
    "Mp4.Props.C47_idempotent"
   ],
   "note": ""
  },
  {
   "property": "C48",
   "status": "proved",
   "theorems": [
    "Mp4.Props.C48_last_wins",
    "Mp4.Props.C48_sameForm"
   ],
   "note": ""
  },
  {
   "property": "C49",
   "status": "partial",
   "theorems": [
    "Mp4.Props.C49_partial",
    "Mp4.Props.C49_tables_partial",
    "Mp4.Props.C49_refuted_claim",
    "Mp4.Props.C49_refuted_large",
    "Mp4.Props.C49_refuted"
   ],
   "note": "False of the code: a chunk offset table that cannot be parsed is noticed after others have been rewritten (C49_refuted); with overflow checks a value of 4 GiB (C49_refuted_large) or user data claiming 2^63 bytes (C49_refuted_claim) causes a panic in the middle of the write. Proved for all byte strings in which no mdat follows moov (C49_partial). For all byte strings: a failure leaves the length and everything but entries of chunk offset tables (C49_tables_partial). Both include panics, in builds with overflow checks unless one of these two causes is present."
  },
  {
   "property": "C50",
   "status": "proved",
   "theorems": [
    "Mp4.Props.C50_crash"
   ],
   "note": ""
  },
  {
   "property": "C51",
   "status": "proved",
   "theorems": [
    "Mp4.Props.C51_buffering",
    "Mp4.Props.C51_any"
   ],
   "note": ""
  },
  {
   "property": "C52",
   "status": "partial",
   "theorems": [
    "Mp4.Props.C52_exact",
    "Mp4.Props.C52_partial",
    "Mp4.Props.C52_refuted",
    "Mp4.Props.C52_refuted_size"
   ],
   "note": "False of the code: chunk offsets (C52_refuted) and atom sizes (C52_refuted_size) are truncated silently. Proved: success is reported in any case, and the sizes stored are the right ones if and only if they fit (C52_exact); if everything fits, so are the chunk offsets (C52_partial; C45_exact for the general case)."
  },
  {
   "property": "C53",
   "status": "proved",
   "theorems": [
    "Mp4.Props.C53_length"
   ],
   "note": ""
  },
  {
   "property": "C54",
   "status": "proved",
   "theorems": [
    "Mp4.Props.C54_read_write"
   ],
   "note": ""
  },
  {
   "property": "C55",
   "status": "partial",
   "theorems": [
    "Mp4.Props.C55_refuted",
    "Mp4.Props.C55_partial"
   ],
   "note": "False of the code: write_to leaves the cursor at the end, every further operation on the handle fails with an I/O error (C55_refuted, for all files). Proved for a handle that is rewound (C55_partial)."
  },
  {
   "property": "C56",
   "status": "partial",
   "theorems": [
    "Mp4.Props.C56_iff",
    "Mp4.Props.C56_partial",
    "Mp4.Props.C56_distinct",
    "Mp4.Props.C56_refuted"
   ],
   "note": "False of the code: 'Top 41', 'Hip,-Hop', 'Lo,-Fi' (C56_refuted). Proved for all codes up to case and punctuation, except for code 61. Exactly: nine names are spelled differently, one is different up to case and punctuation (C56_iff)."
  },
  {
   "property": "C57",
   "status": "proved",
   "theorems": [
    "Mp4.Props.C57_truncated",
    "Mp4.Props.C57_same_tag",
    "Mp4.Props.C57_appended"
   ],
   "note": ""
  },
  {
   "property": "C58",
   "status": "partial",
   "theorems": [
    "Mp4.Props.C58_boundary_partial",
    "Mp4.Props.C58_window_partial",
    "Mp4.Props.C58_lost",
    "Mp4.Props.C58_partial",
    "Mp4.Props.C58_refuted"
   ],
   "note": "False of the code for media data behind moov (C58_refuted). Proved for files with all media data in front of moov (C58_partial). Proved for all files, whichever calls fail and wherever the process stops, also within a low-level write: there is a boundary so that media data in front of it is at its new place and media data behind it at its old one, except for as many bytes as the file grows or shrinks by (C58_boundary_partial); so at most that many bytes, next to each other, are at neither place (C58_window_partial). That cannot be improved: for every file and every boundary there is a moment with that boundary (C58_lost). If the file keeps its length nothing is lost (C90_media)."
  },
  {
   "property": "C59",
   "status": "proved",
   "theorems": [
    "Mp4.Props.C59_ok",
    "Mp4.Props.C59_failed",
    "Mp4.Props.C59_search"
   ],
   "note": ""
  },
  {
   "property": "C60",
   "status": "proved",
   "theorems": [
    "Mp4.Props.C60_front",
    "Mp4.Props.C60_media"
   ],
   "note": ""
  },
  {
   "property": "C61",
   "status": "proved",
   "theorems": [
    "Mp4.Props.C61_dump",
    "Mp4.Props.C61_none"
   ],
   "note": ""
  },
  {
   "property": "C62",
   "status": "partial",
   "theorems": [
    "Mp4.Props.C62_partial",
    "Mp4.Props.C62_checked_partial",
    "Mp4.Props.C62_refuted",
    "Mp4.Props.C62_refuted_co64"
   ],
   "note": "False of the code: a file cut off within its item list (C62_refuted, every build), a chunk offset of 2^63 in a well-formed file (C62_refuted_co64, with overflow checks; the file is left damaged). Proved for any bytes with sane 64 bit sizes in which no moov, udta, meta or ilst atom extends beyond the end (C62_partial, without overflow checks), and with overflow checks for moderate lengths and no 64 bit chunk offsets in addition (C62_checked_partial)."
  },
  {
   "property": "C63",
   "status": "partial",
   "theorems": [
    "Mp4.Props.C63_lists_partial",
    "Mp4.Props.C63_texts_partial",
    "Mp4.Props.C63_numbers_partial",
    "Mp4.Props.C63_flags_partial",
    "Mp4.Props.C63_pairs_partial",
    "Mp4.Props.C63_genres_partial",
    "Mp4.Props.C63_refuted_genre",
    "Mp4.Props.C63_names_partial",
    "Mp4.Props.C63_names_injective",
    "Mp4.Props.C63_filetype_partial",
    "Mp4.Props.C63_freeform_partial",
    "Mp4.Props.C63_kinds",
    "Mp4.Props.C63_values",
    "Mp4.Props.C63_refuted_linebreak",
    "Mp4.Props.C63_genres_iff"
   ],
   "note": "False of the code: a text with a line break imitates other fields (C63_refuted_linebreak), a single genre behind an unknown standard genre is not printed (C63_refuted_genre). Proved for all tags without line breaks, for genres if there are several or the first standard genre is known. Exactly for genres: C63_genres_iff."
  },
  {
   "property": "C64",
   "status": "proved",
   "theorems": [
    "Mp4.Props.C64_duration",
    "Mp4.Props.C64_duration_close",
    "Mp4.Props.C64_artworks",
    "Mp4.Props.C64_bitrates"
   ],
   "note": ""
  },
  {
   "property": "C65",
   "status": "partial",
   "theorems": [
    "Mp4.Props.C65_types",
    "Mp4.Props.C65_matches",
    "Mp4.Props.C65_injective_partial",
    "Mp4.Props.C65_refuted",
    "Mp4.Props.C65_iff"
   ],
   "note": "False of the code for freeform identifiers with a colon in the mean (C65_refuted). Proved for all other identifiers. Exactly: C65_iff."
  },
  {
   "property": "C66",
   "status": "proved",
   "theorems": [
    "Mp4.Props.C66_missing",
    "Mp4.Props.C66_permission",
    "Mp4.Props.C66_write_local",
    "Mp4.Props.C66_dump_local",
    "Mp4.Props.C66_dump_replaces",
    "Mp4.Props.C66_session_local"
   ],
   "note": ""
  },
  {
   "property": "C67",
   "status": "proved",
   "theorems": [
    "Mp4.Props.C67_session",
    "Mp4.Props.C67_no_drift"
   ],
   "note": ""
  },
  {
   "property": "C68",
   "status": "proved",
   "theorems": [
    "Mp4.Props.C68_idents_match",
    "Mp4.Props.C68_eq",
    "Mp4.Props.C68_observable"
   ],
   "note": ""
  },
  {
   "property": "C69",
   "status": "proved",
   "theorems": [
    "Mp4.Props.C69_predicates",
    "Mp4.Props.C69_bytes",
    "Mp4.Props.C69_text",
    "Mp4.Props.C69_images",
    "Mp4.Props.C69_mutation"
   ],
   "note": ""
  },
  {
   "property": "C70",
   "status": "proved",
   "theorems": [
    "Mp4.Props.C70_provenance",
    "Mp4.Props.C70_no_values",
    "Mp4.Props.C70_duration"
   ],
   "note": ""
  },
  {
   "property": "C71",
   "status": "partial",
   "theorems": [
    "Mp4.Props.C71_size_partial",
    "Mp4.Props.C71_amplifies",
    "Mp4.Props.C71_false",
    "Mp4.Props.C71_dump_partial",
    "Mp4.Props.C71_copy_partial"
   ],
   "note": "False of the code without overflow checks: 92 + N + V bytes yield 9 + N copies of a value of V bytes, because a 64 bit size of an inner atom makes skipping go backwards (C71_amplifies, C71_false). Proved for all input in which no 64 bit size is below 16 or at least 2^63 (SaneSizes); copies without UTF-16 texts (see C26)."
  },
  {
   "property": "C72",
   "status": "proved",
   "theorems": [
    "Mp4.Props.C72_same",
    "Mp4.Props.C72_tag",
    "Mp4.Props.C72_reported",
    "Mp4.Props.C72_quiet",
    "Mp4.Props.C72_chunks",
    "Mp4.Props.C72_write",
    "Mp4.Props.C72_write_error",
    "Mp4.Props.C72_table"
   ],
   "note": ""
  },
  {
   "property": "C73",
   "status": "partial",
   "theorems": [
    "Mp4.Props.C73_partial",
    "Mp4.Props.C73_write_partial",
    "Mp4.Props.C73_refuted"
   ],
   "note": "False of the code: a 64 bit size of 2^63 or more within a track makes the search continue in front of moov, and bytes there that look like a chunk offset table are changed (C73_refuted, every build, the write succeeds). Proved for all input in which no 64 bit size is below 16 or at least 2^63 (SaneSizes), with all I/O faults and crash points."
  },
  {
   "property": "C74",
   "status": "proved",
   "theorems": [
    "Mp4.Props.C74_incomplete",
    "Mp4.Props.C74_read",
    "Mp4.Props.C74_head"
   ],
   "note": ""
  },
  {
   "property": "C75",
   "status": "proved",
   "theorems": [
    "Mp4.Props.C75_read",
    "Mp4.Props.C75_write",
    "Mp4.Props.C75_dump",
    "Mp4.Props.C75_iterations",
    "Mp4.Props.C75_determined",
    "Mp4.Props.C75_arithmetic",
    "Mp4.Props.C75_machine_unique"
   ],
   "note": ""
  },
  {
   "property": "C76",
   "status": "proved",
   "theorems": [
    "Mp4.Props.C76_write",
    "Mp4.Props.C76_read",
    "Mp4.Props.C76_unread"
   ],
   "note": ""
  },
  {
   "property": "C77",
   "status": "proved",
   "theorems": [
    "Mp4.Props.C77_reported",
    "Mp4.Props.C77_unchanged",
    "Mp4.Props.C77_read",
    "Mp4.Props.C77_iff"
   ],
   "note": ""
  },
  {
   "property": "C78",
   "status": "proved",
   "theorems": [
    "Mp4.Props.C78_iff",
    "Mp4.Props.C78_rejected",
    "Mp4.Props.C78_unique",
    "Mp4.Props.C78_written"
   ],
   "note": "SaneSizes: no 64 bit size is below 16 or at least 2^63 (see C73 for what happens otherwise). C78_written in addition supposes 64 bit chunk offsets below 2^62; then, by C77, success means that all tables that count are well-formed."
  },
  {
   "property": "C79",
   "status": "partial",
   "theorems": [
    "Mp4.Props.C79_refuted",
    "Mp4.Props.C79_partial",
    "Mp4.Props.C79_unreadable"
   ],
   "note": "False of the code: sizes are not compared with those of the containers. An ilst that claims 8 bytes too many makes writing delete the head of the media data and report success (C79_refuted); a free atom that does makes a readable file unreadable, with success reported (C79_unreadable). Proved if the contents of moov are filled with atoms (C79_partial)."
  },
  {
   "property": "C80",
   "status": "partial",
   "theorems": [
    "Mp4.Props.C80_partial",
    "Mp4.Props.C80_end",
    "Mp4.Props.C80_outside",
    "Mp4.Props.C80_refuted"
   ],
   "note": "False of the code: an atom in moov that claims too many bytes makes the reader take atoms behind moov for items; the media data becomes an item called mdat (C80_outside, C80_refuted, every build). Proved (C80_partial): reading never ends before the end of moov, and if it ends exactly there, the content of moov is well-formed and the items are those of moov. C80_end: on well-formed files it does end there."
  },
  {
   "property": "C81",
   "status": "partial",
   "theorems": [
    "Mp4.Props.C81_partial",
    "Mp4.Props.C81_duration",
    "Mp4.Props.C81_refuted",
    "Mp4.Props.C81_checked"
   ],
   "note": "False of the code: see C79_unreadable (every build); and without overflow checks the duration of a movie header that is too short is read from the size of the following atom, so that writing changes it (C81_duration). Proved (C81_partial): if reading ended at the end of moov, the input is a file, and the claim holds provided that movie header and audio descriptions are complete, the sizes can be stored and 64 bit chunk offsets are below 2^62. With overflow checks (C81_checked) they need not be complete: whatever was read before is read again."
  },
  {
   "property": "C82",
   "status": "proved",
   "theorems": [
    "Mp4.Props.C82_generated",
    "Mp4.Props.C82_added",
    "Mp4.Props.C82_artwork",
    "Mp4.Props.C82_codes",
    "Mp4.Props.C82_codes_read",
    "Mp4.Props.C82_genre",
    "Mp4.Props.C82_pair",
    "Mp4.Props.C82_pair_update",
    "Mp4.Props.C82_written"
   ],
   "note": ""
  },
  {
   "property": "C83",
   "status": "proved",
   "theorems": [
    "Mp4.Props.C83_refines",
    "Mp4.Props.C83_explains",
    "Mp4.Props.C83_occurs"
   ],
   "note": ""
  },
  {
   "property": "C84",
   "status": "proved",
   "theorems": [
    "Mp4.Props.C84_refines",
    "Mp4.Props.C84_explains",
    "Mp4.Props.C84_occurs_search",
    "Mp4.Props.C84_occurs_table",
    "Mp4.Props.C84_occurs_write"
   ],
   "note": "Failing calls during the search are covered by C92. With a buffer of at least 128 bytes the new udta, meta and hdlr are never named by an error of writing alone, since their bytes are still in the buffer; std's BufWriter has 8192."
  },
  {
   "property": "C85",
   "status": "proved",
   "theorems": [
    "Mp4.Props.C85_dump_room",
    "Mp4.Props.C85_dump_fits",
    "Mp4.Props.C85_dump_parts"
   ],
   "note": "The writer takes a prefix and then fails, as a slice or a full disk does."
  },
  {
   "property": "C86",
   "status": "proved",
   "theorems": [
    "Mp4.Props.C86_kind",
    "Mp4.Props.C86_description",
    "Mp4.Props.C86_form",
    "Mp4.Props.C86_place",
    "Mp4.Props.C86_place_write",
    "Mp4.Props.C86_described",
    "Mp4.Props.C86_described_write"
   ],
   "note": ""
  },
  {
   "property": "C87",
   "status": "partial",
   "theorems": [
    "Mp4.Props.C87_checked",
    "Mp4.Props.C87_partial",
    "Mp4.Props.C87_no_mp4a",
    "Mp4.Props.C87_write",
    "Mp4.Props.C87_quadratic",
    "Mp4.Props.C87_refuted"
   ],
   "note": "False of the code in builds without overflow checks: descriptors in mp4a that claim more than the atom are followed to the end of the file, for each mp4a again (C87_quadratic, C87_refuted). Proved: at most four calls per byte with overflow checks (C87_checked), without mp4a (C87_no_mp4a), and five for the reading part of writing (C87_write); in general three more per byte and mp4a (C87_partial)."
  },
  {
   "property": "C88",
   "status": "partial",
   "theorems": [
    "Mp4.Props.C88_partial",
    "Mp4.Props.C88_ok",
    "Mp4.Props.C88_write",
    "Mp4.Props.C88_table",
    "Mp4.Props.C88_claimed",
    "Mp4.Props.C88_refuted"
   ],
   "note": "False of the code: a buffer is requested for the claimed size before anything is read, so 16 bytes of input can request any amount of memory (C88_claimed, C88_refuted). Proved: all requests but the last fit side by side into the input, and so does the last unless the outcome is an I/O error or a panic (C88_partial, C88_ok); twice the input for the reading part of writing (C88_write); tables (C88_table)."
  },
  {
   "property": "C89",
   "status": "partial",
   "theorems": [
    "Mp4.Props.C89_upto",
    "Mp4.Props.C89_partial",
    "Mp4.Props.C89_unchecked",
    "Mp4.Props.C89_behind",
    "Mp4.Props.C89_refuted"
   ],
   "note": "False of the code: with a size that does not fit the items are read behind moov (C89_behind, C89_refuted, every build), and without overflow checks a short mvhd is read into the atom behind moov, although reading ends at the end of moov (C89_unchecked). Proved with overflow checks: nothing matters but ftyp and the bytes from moov up to where reading ended (C89_upto), hence the claim if that is the end of moov (C89_partial)."
  },
  {
   "property": "C90",
   "status": "partial",
   "theorems": [
    "Mp4.Props.C90_bytes",
    "Mp4.Props.C90_media",
    "Mp4.Props.C90_atomic_partial",
    "Mp4.Props.C90_tag_partial",
    "Mp4.Props.C90_refuted",
    "Mp4.Props.C90_mixed",
    "Mp4.Props.C90_torn"
   ],
   "note": "False of the code: after set_len no tag can be read (C90_refuted); even if the file keeps its length, a list of items that does not fit into the buffer is written with several calls, between which the title is new and the artist old (C90_mixed), and so it is within the call (C90_torn). Proved if the file keeps its length (growth 0): every byte is that of the old or of the new file, whichever calls fail and wherever the process stops, also within a call (C90_bytes), all media data survives at its place on both sides of moov (C90_media), and, if the items fit into the buffer and calls are executed as a whole or not at all, the file is exactly the old or the new one (C90_atomic_partial) and so is the tag (C90_tag_partial)."
  },
  {
   "property": "C91",
   "status": "partial",
   "theorems": [
    "Mp4.Props.C91_tree",
    "Mp4.Props.C91_kept",
    "Mp4.Props.C91_same",
    "Mp4.Props.C91_read",
    "Mp4.Props.C91_half",
    "Mp4.Props.C91_partial",
    "Mp4.Props.C91_media",
    "Mp4.Props.C91_clean",
    "Mp4.Props.C91_plain",
    "Mp4.Props.C91_refuted",
    "Mp4.Props.C91_erodes"
   ],
   "note": "False of the code: if too little data follows, part of the surplus remains behind the last atom, after which the file cannot be saved again (C91_refuted), and saving what was read halves a text each time (C91_erodes). Proved for all texts: everything outside of the item list is as for values of the claimed sizes (C91_partial), all other top level atoms are kept and at most surplus minus what follows is added (C91_media), nothing if enough data follows (C91_clean); without UTF-16 texts this is the ordinary case (C91_plain). The resulting tree for all items: the atoms around the item list as usual, in it the first bytes of the items (C91_tree), everything else kept (C91_kept), equal to the ordinary tree without texts (C91_same). If the last value is a text and the only one, exactly its first half is read back, everything else as it was (C91_read, C91_half)."
  },
  {
   "property": "C92",
   "status": "proved",
   "theorems": [
    "Mp4.Props.C92_refines",
    "Mp4.Props.C92_same",
    "Mp4.Props.C92_explains",
    "Mp4.Props.C92_write_refines",
    "Mp4.Props.C92_write_explains",
    "Mp4.Props.C92_search_explains",
    "Mp4.Props.C92_occurs",
    "Mp4.Props.C92_occurs_search"
   ],
   "note": ""
  },
  {
   "property": "C93",
   "status": "proved",
   "theorems": [
    "Mp4.Props.C93_list",
    "Mp4.Props.C93_value",
    "Mp4.Props.C93_set",
    "Mp4.Props.C93_interrupted"
   ],
   "note": ""
  },
  {
   "property": "C94",
   "status": "proved",
   "theorems": [
    "Mp4.Props.C94_bytes",
    "Mp4.Props.C94_calls",
    "Mp4.Props.C94_parts",
    "Mp4.Props.C94_bound",
    "Mp4.Props.C94_faults",
    "Mp4.Props.C94_faults_bound"
   ],
   "note": ""
  },
  {
   "property": "C95",
   "status": "proved",
   "theorems": [
    "Mp4.Props.C95_retain",
    "Mp4.Props.C95_retain_entries",
    "Mp4.Props.C95_retain_of",
    "Mp4.Props.C95_pure",
    "Mp4.Props.C95_kinds",
    "Mp4.Props.C95_kinds_of",
    "Mp4.Props.C95_add",
    "Mp4.Props.C95_set"
   ],
   "note": ""
  },
  {
   "property": "C96",
   "status": "proved",
   "theorems": [
    "Mp4.Props.C96_faults",
    "Mp4.Props.C96_faults_ok",
    "Mp4.Props.C96_faults_reported",
    "Mp4.Props.C96_faults_front",
    "Mp4.Props.C96_faults_cost",
    "Mp4.Props.C96_save",
    "Mp4.Props.C96_save_path",
    "Mp4.Props.C96_read",
    "Mp4.Props.C96_path",
    "Mp4.Props.C96_search",
    "Mp4.Props.C96_table",
    "Mp4.Props.C96_memory",
    "Mp4.Props.C96_calls",
    "Mp4.Props.C96_search_calls"
   ],
   "note": ""
  },
  {
   "property": "C97",
   "status": "proved",
   "theorems": [
    "Mp4.Props.C97_effect",
    "Mp4.Props.C97_lawful",
    "Mp4.Props.C97_library",
    "Mp4.Props.C97_unique_iff",
    "Mp4.Props.C97_unique",
    "Mp4.Props.C97_frame",
    "Mp4.Props.C97_get_set",
    "Mp4.Props.C97_take_remove",
    "Mp4.Props.C97_dump",
    "Mp4.Props.C97_refuted"
   ],
   "note": ""
  },
  {
   "property": "C98",
   "status": "proved",
   "theorems": [
    "Mp4.Props.C98_read",
    "Mp4.Props.C98_write",
    "Mp4.Props.C98_write_back",
    "Mp4.Props.C98_panics",
    "Mp4.Props.C98_table",
    "Mp4.Props.C98_refuted",
    "Mp4.Props.C98_refuted_write"
   ],
   "note": ""
  },
  {
   "property": "C99",
   "status": "proved",
   "theorems": [
    "Mp4.Props.C99_short",
    "Mp4.Props.C99_ok",
    "Mp4.Props.C99_quiet",
    "Mp4.Props.C99_reported",
    "Mp4.Props.C99_front",
    "Mp4.Props.C99_cost",
    "Mp4.Props.C99_crash",
    "Mp4.Props.C99_calls",
    "Mp4.Props.C99_path",
    "Mp4.Props.C99_dump"
   ],
   "note": ""
  },
  {
   "property": "C100",
   "status": "partial",
   "theorems": [
    "Mp4.Props.C100_partial",
    "Mp4.Props.C100_whole",
    "Mp4.Props.C100_search",
    "Mp4.Props.C100_twice",
    "Mp4.Props.C100_refuted",
    "Mp4.Props.C100_stuck",
    "Mp4.Props.C100_long",
    "Mp4.Props.C100_handler"
   ],
   "note": "False of the code: if the save fails after some chunk offset tables were adjusted, the second attempt reports success but adjusts them again, so that chunks are looked for at wrong places (C100_twice, C100_refuted); if it fails after the size of moov was changed, the second attempt fails without failing calls (C100_stuck). Proved: if the saves keep the length of the file, and it has a handler and an item list with a 32 bit size, then after any number of failed or stopped attempts, also of other tags, a save leaves the file it would have left at once (C100_partial); without the 32 bit size (C100_long) or the handler (C100_handler) this is false as well. If the length changes: if the attempt has left the old or the new file (C100_whole), in particular if it failed in the search (C100_search)."
  },
  {
   "property": "C101",
   "status": "proved",
   "theorems": [
    "Mp4.Props.C101_tag",
    "Mp4.Props.C101_utf16",
    "Mp4.Props.C101_getters",
    "Mp4.Props.C101_save",
    "Mp4.Props.C101_twice",
    "Mp4.Props.C101_failure",
    "Mp4.Props.C101_display"
   ],
   "note": ""
  },
  {
   "property": "C102",
   "status": "proved",
   "theorems": [
    "Mp4.Props.C102_history",
    "Mp4.Props.C102_read",
    "Mp4.Props.C102_iff",
    "Mp4.Props.C102_saved",
    "Mp4.Props.C102_dumped",
    "Mp4.Props.C102_not_always"
   ],
   "note": ""
  },
  {
   "property": "C103",
   "status": "proved",
   "theorems": [
    "Mp4.Props.C103_tag",
    "Mp4.Props.C103_error",
    "Mp4.Props.C103_to_string",
    "Mp4.Props.C103_room"
   ],
   "note": ""
  },
  {
   "property": "C104",
   "status": "proved",
   "theorems": [
    "Mp4.Props.C104_values",
    "Mp4.Props.C104_entries",
    "Mp4.Props.C104_dumped",
    "Mp4.Props.C104_saved",
    "Mp4.Props.C104_read",
    "Mp4.Props.C104_same",
    "Mp4.Props.C104_order_visible",
    "Mp4.Props.C104_take_genre"
   ],
   "note": ""
  },
  {
   "property": "C105",
   "status": "proved",
   "theorems": [
    "Mp4.Props.C105_dump",
    "Mp4.Props.C105_saved",
    "Mp4.Props.C105_add",
    "Mp4.Props.C105_set",
    "Mp4.Props.C105_remove",
    "Mp4.Props.C105_add_saved"
   ],
   "note": ""
  },
  {
   "property": "C106",
   "status": "proved",
   "theorems": [
    "Mp4.Props.C106_entries",
    "Mp4.Props.C106_values",
    "Mp4.Props.C106_file",
    "Mp4.Props.C106_small"
   ],
   "note": ""
  },
  {
   "property": "C107",
   "status": "proved",
   "theorems": [
    "Mp4.Props.C107_sittings",
    "Mp4.Props.C107_utf16"
   ],
   "note": ""
  },
  {
   "property": "C108",
   "status": "partial",
   "theorems": [
    "Mp4.Props.C108_refuted",
    "Mp4.Props.C108_text",
    "Mp4.Props.C108_read_partial",
    "Mp4.Props.C108_save_partial"
   ],
   "note": "False of the code: source is not implemented (C108_refuted), and cause leaves out the errors of decoding a text (C108_text). Proved: cause gives the I/O error whenever a call to the reader or writer fails, unless the save fails anyway."
  }
 ]
}