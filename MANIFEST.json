{
 "claims": [
  {
   "property": "C01",
   "status": "proved",
   "theorems": [
    "Souris.C01_unsigned_roundtrip",
    "Souris.C01_signed_roundtrip",
    "Souris.C01_value"
   ],
   "note": ""
  },
  {
   "property": "C02",
   "status": "partial",
   "theorems": [
    "Souris.C02_unsigned_exact",
    "Souris.C02_signed_law",
    "Souris.C02_signed_fits_partial",
    "Souris.C02_refuted_signed",
    "Souris.C02_refuted_signed_neg",
    "Souris.C02_refuted_everywhere"
   ],
   "note": "Signed narrowing is wrong in the code (see C02_refuted_*); exact law proved in C02_signed_law, the unsigned half is full."
  },
  {
   "property": "C03",
   "status": "proved",
   "theorems": [
    "Souris.C03_integer_roundtrip",
    "Souris.C03_prefix_free"
   ],
   "note": ""
  },
  {
   "property": "C04",
   "status": "partial",
   "theorems": [
    "Souris.C04_roundtrip_eq_iff",
    "Souris.C04_roundtrip_eq_partial",
    "Souris.C04_refuted_unsigned_zero"
   ],
   "note": "Fails for an unsigned zero read back with a different signedness; exact iff in C04_roundtrip_eq_iff."
  },
  {
   "property": "C05",
   "status": "partial",
   "theorems": [
    "Souris.C05_eq_iff",
    "Souris.C05_eq_numeric_partial",
    "Souris.C05_refuted_zero",
    "Souris.C05_refuted_zero_text",
    "Souris.C05_equivalence",
    "Souris.C05_eq_sound",
    "Souris.C05_refuted_noncanonical"
   ],
   "note": "Equality is numeric except for signed/unsigned zero and non-canonical deserialised values; C05_refuted_*."
  },
  {
   "property": "C06",
   "status": "proved",
   "theorems": [
    "Souris.C06_hash_of_eq"
   ],
   "note": ""
  },
  {
   "property": "C07",
   "status": "proved",
   "theorems": [
    "Souris.C07_size",
    "Souris.C07_size_le"
   ],
   "note": ""
  },
  {
   "property": "C08",
   "status": "proved",
   "theorems": [
    "Souris.C08_parse_exact",
    "Souris.C08_display",
    "Souris.C08_text_roundtrip"
   ],
   "note": "Text of native integers; from_str accepts exactly the in-range decimal numerals and never panics. std integer formatting/parsing is transcribed."
  },
  {
   "property": "C09",
   "status": "partial",
   "theorems": [
    "Souris.C09_arith_exact_partial",
    "Souris.C09_refuted_mixed",
    "Souris.C09_law",
    "Souris.C09_wrong_iff"
   ],
   "note": "The law for all operands and both kinds of build is C09_law. With overflow checks a result is exact or loud when both operands are unsigned or both are below 2^127 (C09_arith_exact_partial); exactly when it is silently wrong is C09_wrong_iff; witness C09_refuted_mixed. Without overflow checks results wrap (C09_law)."
  },
  {
   "property": "C10",
   "status": "partial",
   "theorems": [
    "Souris.C10_f64_law",
    "Souris.C10_f64_integral_partial",
    "Souris.C10_f64_fraction_partial",
    "Souris.C10_refuted_f64_negative",
    "Souris.C10_refuted_f64_epsilon",
    "Souris.C10_refuted_f64_all_negative",
    "Souris.C10_refuted_f64_min",
    "Souris.C10_f32_law",
    "Souris.C10_f32_negative_partial",
    "Souris.C10_refuted_f32_nonneg",
    "Souris.C10_refuted_f32_one",
    "Souris.C10_f64_message"
   ],
   "note": "Exact law for all f64 and f32 bit patterns, and the error for a fraction carries exactly the part behind the point, which its message gives as a decimal (C10_f64_message); integral f64 in (-2^127, 2^128) are exact. Violated: negative fractions, 1+EPSILON, -2^127 (f64); every non-negative f32 is refused."
  },
  {
   "property": "C11",
   "status": "partial",
   "theorems": [
    "Souris.C11_json_partial",
    "Souris.C11_refuted_below_i64",
    "Souris.C11_refuted_everywhere",
    "Souris.C11_refuted_zero"
   ],
   "note": "Holds in -2^63..2^64-1 up to the signed zero; violated for all -2^64 <= n < -2^63 and for signed zero."
  },
  {
   "property": "C12",
   "status": "proved",
   "theorems": [
    "Souris.C12_cursor_refine",
    "Souris.C12_seek_in_bounds",
    "Souris.C12_refuted_read_at_end"
   ],
   "note": "Refinement to a zipper for every history; C12_refuted_read_at_end concerns only a sentence of the documentation of read."
  },
  {
   "property": "C13",
   "status": "partial",
   "theorems": [
    "Souris.C13_seek_current_partial",
    "Souris.C13_seek_start_iff",
    "Souris.C13_refuted_current_negative",
    "Souris.C13_refuted_rewind",
    "Souris.C13_refuted_end",
    "Souris.C13_refuted_end_min"
   ],
   "note": "The contract holds only for Current(d), d >= 0; Start, End and negative Current are refuted (exact iff for Start)."
  },
  {
   "property": "C14",
   "status": "proved",
   "theorems": [
    "Souris.C14_bits_refine",
    "Souris.C14_push_in_range"
   ],
   "note": "Refinement to List Bool for every history of push/pop/push_many/clear/collect/from_binary."
  },
  {
   "property": "C15",
   "status": "partial",
   "theorems": [
    "Souris.C15_roundtrip_iff",
    "Souris.C15_bits_roundtrip_partial",
    "Souris.C15_refuted",
    "Souris.C15_lengths",
    "Souris.C15_whole_bytes_partial"
   ],
   "note": "Decided for every length: the bits round-trip iff the f32 nearest to their number fills as many bytes (C15_lengths; nearest stated independently, with ties to even). Hence proved up to 2^24 bits and for whole bytes up to 2^27 bits; refuted at 2^24+1 bits."
  },
  {
   "property": "C16",
   "status": "partial",
   "theorems": [
    "Souris.C16_eq_partial",
    "Souris.C16_refuted_eq_iter",
    "Souris.C16_refuted_index_iter",
    "Souris.C16_views_partial",
    "Souris.C16_eq_exact_partial",
    "Souris.C16_zeros_partial"
   ],
   "note": "Proved for Bits built through the API (C16_eq_partial). For deserialised Bits of every length that C15 keeps (all up to 2^24 bits): what indexing, printing and iterating show (C16_views_partial), exactly which are equal (C16_eq_exact_partial), and the property itself whenever the padding is zero (C16_zeros_partial). With padding bits set it is violated (C16_refuted_eq_iter, C16_refuted_index_iter)."
  },
  {
   "property": "C17",
   "status": "partial",
   "theorems": [
    "Souris.C17_new_total",
    "Souris.C17_lossless_partial",
    "Souris.C17_new_and_encode_partial",
    "Souris.C17_refuted_one_symbol"
   ],
   "note": "Proved for all data with two different symbols and every hash order; with one distinct symbol the data is lost (C17_refuted_one_symbol)."
  },
  {
   "property": "C18",
   "status": "proved",
   "theorems": [
    "Souris.C18_alphabet"
   ],
   "note": "Any hash order; encode succeeds exactly on the alphabet, error otherwise, codes prefix-free."
  },
  {
   "property": "C19",
   "status": "proved",
   "theorems": [
    "Souris.C19_optimal"
   ],
   "note": "Optimal among all prefix-free codes (not only trees); Kraft inequality plus exchange argument."
  },
  {
   "property": "C20",
   "status": "proved",
   "theorems": [
    "Souris.C20_tree_roundtrip_u8",
    "Souris.C20_tree_roundtrip_char",
    "Souris.C20_coder_of_root"
   ],
   "note": "Byte and character trees, arbitrary prefix and suffix."
  },
  {
   "property": "C21",
   "status": "partial",
   "theorems": [
    "Souris.C21_decode_exact_partial",
    "Souris.C21_new_partial",
    "Souris.C21_refuted_one_leaf",
    "Souris.C21_refuted_repeated",
    "Souris.C21_decode_spells_partial",
    "Souris.C21_exact_partial"
   ],
   "note": "Exact for trees with at least two leaves and distinct symbols; one-leaf trees panic, repeated symbols break exactness (C21_refuted_*). C21_exact_partial: the property holds of a tree if and only if it has two leaves or more and no symbol is reached by two paths; C21_decode_spells_partial says for every such tree what decoding gives."
  },
  {
   "property": "C22",
   "status": "proved",
   "theorems": [
    "Souris.C22_rle_lossless",
    "Souris.C22_unrle_no_panic"
   ],
   "note": ""
  },
  {
   "property": "C23",
   "status": "proved",
   "theorems": [
    "Souris.C23_lz_lossless",
    "Souris.C23_lz4"
   ],
   "note": "For every lossless block codec, and for the model of lz4_flex of C89 without hypotheses (C23_lz4)."
  },
  {
   "property": "C24",
   "status": "partial",
   "theorems": [
    "Souris.C24_no_longer",
    "Souris.C24_huffman_total",
    "Souris.C24_huffman_lossless_partial",
    "Souris.C24_refuted",
    "Souris.C24_exact"
   ],
   "note": "Lossless up to 2 MiB (and any length of one repeated byte); C24_refuted: 2^24+1 bytes over two symbols panic on reading back. C24_exact decides every string (up to 2^60 bytes): lossless iff the f32 nearest to the number of code bits fills as many bytes."
  },
  {
   "property": "C25",
   "status": "partial",
   "theorems": [
    "Souris.C25_never_expands",
    "Souris.C25_roundtrip_partial",
    "Souris.C25_refuted",
    "Souris.C25_exact",
    "Souris.C25_lz4_partial",
    "Souris.C25_refuted_lz4"
   ],
   "note": "Size claim full; round trip up to 2 MiB or whenever Huffman is not chosen; C25_refuted for long two-symbol data. With the model of lz4_flex (C89) the hypothesis that it is lossless goes (C25_lz4_partial), and by counting there is data of 2^24+1 bytes for which Huffman is chosen, so that it is lost (C25_refuted_lz4). C25_exact decides every string: lost iff Huffman is chosen and C24_exact says so."
  },
  {
   "property": "C26",
   "status": "partial",
   "theorems": [
    "Souris.C26_json_near_partial",
    "Souris.C26_json_partial",
    "Souris.C26_refuted_json_float",
    "Souris.C26_refuted_json_deep",
    "Souris.C26_lz4_partial",
    "Souris.C26_roundtrip_partial",
    "Souris.C26_stable_partial",
    "Souris.C26_exact_partial",
    "Souris.C26_refuted_maps_and_empty_arrays",
    "Souris.C26_refuted_map",
    "Souris.C26_refuted_leap_second",
    "Souris.C26_refuted_one_symbol",
    "Souris.C26_string_exact",
    "Souris.C26_binary_exact",
    "Souris.C26_refuted_long_text",
    "Souris.C26_never_wrong_partial",
    "Souris.C26_near_partial",
    "Souris.C26_near_never_wrong_partial"
   ],
   "note": "Any depth, any coder with at least two symbols or none, any prefix/suffix. Violated by every value containing a map or an empty array (no byte string at all deserialises to one), by misplaced leap seconds, and by one-symbol coders (C26_refuted_*). C26_never_wrong_partial: maps, empty arrays and leap seconds are refused, never read as something else. Up to an exbibyte, binary data comes back if and only if it is not stored under a tree with one of the code lengths above 2 MiB that C15 tells (C26_binary_exact), and a coded text likewise (C26_string_exact, C26_refuted_long_text). JSON, with the text form of serde_json (Model/JsonText): proved for depth up to 127 and floats with few digits (C26_json_partial); with other floats up to 1.7975*10^308 the same JSON comes back, floats off by at most two parts in 10^15 (C26_json_near_partial, and for values of any depth that contain such JSON C26_near_partial, C26_near_never_wrong_partial); violated by floats with many digits, which come back as another number (C26_refuted_json_float), and by deeper JSON, which is written but never read (C26_refuted_json_deep)."
  },
  {
   "property": "C27",
   "status": "proved",
   "theorems": [
    "Souris.C27_terminates",
    "Souris.C27_outcome_unique",
    "Souris.C27_progress"
   ],
   "note": "Loop relation without fuel; at most 4*len+1 iterations, unique outcome, progress of the cursor."
  },
  {
   "property": "C28",
   "status": "partial",
   "theorems": [
    "Souris.C28_lz4_partial",
    "Souris.C28_store_lz4_partial",
    "Souris.C28_refuted_lz4",
    "Souris.C28_store_panics_partial",
    "Souris.C28_refuted_store_underflow",
    "Souris.C28_refuted_store_leaf",
    "Souris.C28_panics_partial",
    "Souris.C28_refuted_array_capacity",
    "Souris.C28_refuted_map_capacity",
    "Souris.C28_refuted_leaf_tree",
    "Souris.C28_refuted_repeat"
   ],
   "note": "Complete list of the only possible panics in C28_panics_partial (lz4 is assumed to panic only for too large a size, which is proved of its model: C28_lz4_partial, C28_store_lz4_partial); four of them, and that of lz4, exhibited by C28_refuted_*; the same for Store::deser (C28_store_panics_partial), where a zero character leaf also underflows. Stack and memory exhaustion are not modelled."
  },
  {
   "property": "C29",
   "status": "partial",
   "theorems": [
    "Souris.C29_hash_exact_partial",
    "Souris.C29_refuted_hash_json_float",
    "Souris.C29_refl_iff",
    "Souris.C29_symm",
    "Souris.C29_trans",
    "Souris.C29_hash_partial",
    "Souris.C29_refuted_nan",
    "Souris.C29_refuted_hash_zero",
    "Souris.C29_refuted_hash_json_zero",
    "Souris.C29_refuted_hash_map_order"
   ],
   "note": "Symmetry and transitivity proved for all values; reflexivity exactly for values without NaN (C29_refl_iff); equal values hash alike when they hold no float zero and no map with more than one entry. C29_hash_exact_partial: for values whose JSON was made by serde_json, a value hashes like every value equal to it if and only if it holds a NaN, or neither a float zero nor a map of two entries or more. Violations C29_refuted_*."
  },
  {
   "property": "C30",
   "status": "proved",
   "theorems": [
    "Souris.C30_character",
    "Souris.C30_string",
    "Souris.C30_boolean",
    "Souris.C30_integer",
    "Souris.C30_imaginary",
    "Souris.C30_timestamp",
    "Souris.C30_json",
    "Souris.C30_null",
    "Souris.C30_double",
    "Souris.C30_single",
    "Souris.C30_array",
    "Souris.C30_map",
    "Souris.C30_timezone",
    "Souris.C30_ipv4",
    "Souris.C30_ipv6",
    "Souris.C30_binary",
    "Souris.C30_native",
    "Souris.C30_native_mismatch"
   ],
   "note": "All 16 variants and all native integer types."
  },
  {
   "property": "C31",
   "status": "partial",
   "theorems": [
    "Souris.C31_refuted_timestamp_chrono",
    "Souris.C31_timestamp",
    "Souris.C31_exact",
    "Souris.C31_refuted_holds",
    "Souris.C31_roundtrip_partial",
    "Souris.C31_no_panic",
    "Souris.C31_refuted_timestamp",
    "Souris.C31_refuted_marker_address",
    "Souris.C31_refuted_marker_error",
    "Souris.C31_refuted_marker",
    "Souris.C31_refuted_integer"
   ],
   "note": "Any depth and hash order, on the domain Jsonable; never panics for any JSON. C31_exact: a value comes back exactly if it is in that domain. Violated by every timestamp, by maps with a souris_type key and by integers below -2^63 (C31_refuted_*); with the model of chrono, no value that holds a timestamp at any depth comes back (C31_refuted_holds), and timestamps are read exactly from the documented format (C31_timestamp)."
  },
  {
   "property": "C32",
   "status": "proved",
   "theorems": [
    "Souris.C32_valueTy",
    "Souris.C32_valueTy_distinct",
    "Souris.C32_valueTy_rejected",
    "Souris.C32_signedState",
    "Souris.C32_signedState_rejected",
    "Souris.C32_compression",
    "Souris.C32_compression_rejected",
    "Souris.C32_type_byte"
   ],
   "note": "All 256 bytes for the three tables; the first byte written for any value carries its tag in the upper half."
  },
  {
   "property": "C33",
   "status": "partial",
   "theorems": [
    "Souris.C33_refuted",
    "Souris.C33_envelope_partial"
   ],
   "note": "Violated by every store: no byte string deserialises to a store (C33_refuted). Proved: the envelope (magic, flag byte, coder, compression) is lossless whenever the bytes survive ser_binary (C35; in particular up to 2 MiB), so deser does exactly what Value::deser does on the map bytes."
  },
  {
   "property": "C34",
   "status": "proved",
   "theorems": [
    "Souris.C34_written",
    "Souris.C34_required"
   ],
   "note": "Every written file has the magic and a known compression code; inputs without them are refused with an error."
  },
  {
   "property": "C35",
   "status": "proved",
   "theorems": [
    "Souris.C35_covers",
    "Souris.C35_no_text"
   ],
   "note": "Every character of every key, string, time-zone name and printed JSON at any depth is in the coder; no coder exactly when there is no text."
  },
  {
   "property": "C36",
   "status": "partial",
   "theorems": [
    "Souris.C36_bytes",
    "Souris.C36_bytes_partial",
    "Souris.C36_bytes_errors",
    "Souris.C36_json_partial",
    "Souris.C36_json_errors",
    "Souris.C36_refuted_timestamp",
    "Souris.C36_value_partial",
    "Souris.C36_wrap_partial",
    "Souris.C36_object_partial",
    "Souris.C36_store_partial",
    "Souris.C36_refuted_wrapper",
    "Souris.C36_refuted_marker",
    "Souris.C36_refuted_array",
    "Souris.C36_store_exact",
    "Souris.C36_text_partial",
    "Souris.C36_text_errors"
   ],
   "note": "Also from JSON text (C36_text_partial, C36_text_errors), and with the grammar of JSON and the reader of serde_json (C36_json_partial, C36_json_errors), and from bytes as from_json_bytes reads them, whether they are UTF-8 or not (C36_bytes, C36_bytes_partial, C36_bytes_errors). Proved on plain canonical JSON and on stores in the domain Jsonable without a lone JSON key; C36_store_exact: a store comes back if and only if it is such a store; violations C36_refuted_*, among them every store that holds a timestamp, under the model of chrono (C36_refuted_timestamp)."
  },
  {
   "property": "C37",
   "status": "partial",
   "theorems": [
    "Souris.C37_operations_partial",
    "Souris.C37_requests_partial",
    "Souris.C37_refuted_content"
   ],
   "note": "Every history of requests and evictions answers like a plain map of maps; missing: add_db_with_content, whose request is refused or aborted for every body because no byte string deserialises to a store (C37_refuted_content), and concurrent requests (C38-C40)."
  },
  {
   "property": "C38",
   "status": "partial",
   "theorems": [
    "Souris.C38_visible_partial",
    "Souris.C38_alone_partial",
    "Souris.C38_add_db",
    "Souris.C38_refuted",
    "Souris.C38_cancelled_stale"
   ],
   "note": "Violated: a concurrent get_db can put the old copy back into the cache after the writer invalidated it and before it wrote, and every later get_db is stale (C38_refuted, for every environment). Proved for add_db in full, and for the other writes when no get_db of the database fills the cache in that window; also when requests are cancelled. An add_db cancelled after its change leaves the old copy in the cache (C38_cancelled_stale)."
  },
  {
   "property": "C39",
   "status": "proved",
   "theorems": [
    "Souris.C39_linearizable",
    "Souris.C39_exclusive",
    "Souris.C39_requests",
    "Souris.C39_map_of_maps"
   ],
   "note": "Any number of tasks, any interleaving; order of the lock, real-time order, every reply. Requests may be cancelled at every await. moka and tokio primitives are atomic. C39_requests says the same of HTTP requests to a daemon that begins empty, so that claims about histories carry over."
  },
  {
   "property": "C40",
   "status": "proved",
   "theorems": [
    "Souris.C40_real"
   ],
   "note": "Any number of tasks, any interleaving and evictions."
  },
  {
   "property": "C41",
   "status": "proved",
   "theorems": [
    "Souris.C41_codes"
   ],
   "note": "All states, names, keys, values and flags."
  },
  {
   "property": "C42",
   "status": "partial",
   "theorems": [
    "Souris.C42_add_db_partial",
    "Souris.C42_refuted_contents"
   ],
   "note": "add_db exact; new_db_with_contents answers the two statuses the wrong way round for every state (C42_refuted_contents)."
  },
  {
   "property": "C43",
   "status": "partial",
   "theorems": [
    "Souris.C43_concurrent_partial",
    "Souris.C43_names_partial",
    "Souris.C43_refuted_any_name",
    "Souris.C43_refuted_meta",
    "Souris.C43_origin_partial",
    "Souris.C43_blame_partial"
   ],
   "note": "Holds for histories without create_new_database=true on add_kv; violated by one add_kv (C43_refuted_*). C43_origin_partial and C43_blame_partial: in any history a name that breaks the rules was made by an add_kv with create_new_database, and no other request is to blame; C43_concurrent_partial says so of every interleaving."
  },
  {
   "property": "C44",
   "status": "partial",
   "theorems": [
    "Souris.C44_other_databases",
    "Souris.C44_other_keys",
    "Souris.C44_failed_partial",
    "Souris.C44_refuted_remove"
   ],
   "note": "Other databases and other keys unchanged for every operation; failed operations change nothing except rm_db whose file cannot be deleted (C44_refuted_remove)."
  },
  {
   "property": "C45",
   "status": "partial",
   "theorems": [
    "Souris.C45_refuted",
    "Souris.C45_restart_partial"
   ],
   "note": "Violated always: after any successful save the daemon does not start again, because the list of databases is never readable (C45_refuted, from C33). The rest of save/start is right: with any deserialiser that reads the stores back the restart gives the same databases, for names of one path component other than meta."
  },
  {
   "property": "C46",
   "status": "partial",
   "theorems": [
    "Souris.C46_refuted",
    "Souris.C46_refuted_meta",
    "Souris.C46_one_file_partial",
    "Souris.C46_bad_files_skipped_partial",
    "Souris.C46_restart_partial"
   ],
   "note": "Readable databases other than at most one come back after a restart unless the list was being written (C46_restart_partial). Violated: files are truncated before they are written, so a crash leaves an empty database file, or an empty list after which nothing starts (C46_refuted, C46_refuted_meta). Proved: at every crash point at most one file is damaged."
  },
  {
   "property": "C47",
   "status": "proved",
   "theorems": [
    "Souris.C47_stays_removed",
    "Souris.C47_refuted_if_readable"
   ],
   "note": "Holds for the code as it is only because a daemon that starts always starts without databases. Were the list readable, a removed database would come back empty (C47_refuted_if_readable)."
  },
  {
   "property": "C48",
   "status": "partial",
   "theorems": [
    "Souris.C48_save_partial",
    "Souris.C48_refuted_unreported",
    "Souris.C48_refuted_meta",
    "Souris.C48_refuted_alias"
   ],
   "note": "For names of one path component other than meta, for every set of failing writes of databases and any disk: exactly the databases whose write reported no error are listed, and those whose write did not fail hold their contents. Violated for a database called meta, for names like b and ./b, and when a write fails in its last 2 MiB (full disk): tokio File without flush does not report it, so save returns Ok and lists a truncated file (C48_refuted_*)."
  },
  {
   "property": "C49",
   "status": "partial",
   "theorems": [
    "Souris.C49_contained_partial",
    "Souris.C49_refuted_parent",
    "Souris.C49_refuted_absolute",
    "Souris.C49_touched_partial",
    "Souris.C49_exact_partial"
   ],
   "note": "Names without a slash stay directly in the base directory; add_db accepts ../x and /tmp/x, which save and rm_db follow (C49_refuted_*). For every name, C49_touched_partial says which path may be changed and C49_exact_partial which names keep all writes in the base directory. Symbolic links are not modelled."
  },
  {
   "property": "C50",
   "status": "partial",
   "theorems": [
    "Souris.C50_table",
    "Souris.C50_statuses_partial",
    "Souris.C50_refuted_add_kv"
   ],
   "note": "Exact table and exact conditions for every operation except add_kv, which answers 200 whatever happened (C50_refuted_add_kv)."
  },
  {
   "property": "C51",
   "status": "partial",
   "theorems": [
    "Souris.C51_refuted",
    "Souris.C51_before_partial",
    "Souris.C51_concurrent_partial",
    "Souris.C51_exit_after_save",
    "Souris.C51_refuted_recreated"
   ],
   "note": "Violated: requests are accepted and answered until the saver is finished, so a write between the final save and the end is lost (C51_refuted). Proved for everything in memory when the final save begins, also under every interleaving with requests (C51_concurrent_partial). There also violated without any late request: an rm_db that is answered late deletes the file of the database that was made again (C51_refuted_recreated)."
  },
  {
   "property": "C52",
   "status": "partial",
   "theorems": [
    "Souris.C52_write_read_partial",
    "Souris.C52_write_read_sync_partial",
    "Souris.C52_refuted_json_float",
    "Souris.C52_lz4_partial",
    "Souris.C52_near_partial",
    "Souris.C52_near_sync_partial"
   ],
   "note": "Both clients, all values with or without maps and empty arrays, all histories before and after, evictions included. Missing: binary data whose code has one of the lengths that C15 tells (C26_binary_exact), JSON that its own text does not preserve; for that it is violated (C52_refuted_json_float), but with serde_json only in the last digits of floats (C52_near_partial, C52_near_sync_partial). Percent-encoding, routing and the JSON of CreationResult are covered by C72."
  },
  {
   "property": "C53",
   "status": "partial",
   "theorems": [
    "Souris.C53_remove_db_partial",
    "Souris.C53_refuted_remove_db",
    "Souris.C53_refuted_get_store",
    "Souris.C53_refuted_get_store_sync",
    "Souris.C53_refuted_remove_entry",
    "Souris.C53_remove_entry_partial"
   ],
   "note": "remove_db is right unless the file cannot be deleted; get_store never returns a store in either client; remove_entry_from_db fails when there is nothing to remove (C53_refuted_*)."
  },
  {
   "property": "C54",
   "status": "proved",
   "theorems": [
    "Souris.C54_imaginary_roundtrip",
    "Souris.C54_polar_exact",
    "Souris.C54_magic",
    "Souris.C54_unknown_magic",
    "Souris.C54_no_panic"
   ],
   "note": "Cartesian and polar, any prefix/suffix, all 256 magic bytes; the trigonometry is not modelled."
  },
  {
   "property": "C55",
   "status": "proved",
   "theorems": [
    "Souris.C55_progress",
    "Souris.C55_released",
    "Souris.C55_bounded"
   ],
   "note": "Some step is always possible while a call is unanswered; at most five steps per call after its arrival; a cancelled or answered call does not keep the lock. That every call is answered under a fair scheduler is C90."
  },
  {
   "property": "C56",
   "status": "partial",
   "theorems": [
    "Souris.C56_create_new_db",
    "Souris.C56_get_all_dbs",
    "Souris.C56_refuted_contents",
    "Souris.C56_no_panic"
   ],
   "note": "create_new_db and get_all_dbs hold in full; add_db_with_contents never succeeds (C56_refuted_contents)."
  },
  {
   "property": "C57",
   "status": "partial",
   "theorems": [
    "Souris.C57_agree_partial",
    "Souris.C57_refuted_remove_db",
    "Souris.C57_refuted_get_store"
   ],
   "note": "Equal as functions except for remove_db and get_store (C57_refuted_*)."
  },
  {
   "property": "C58",
   "status": "partial",
   "theorems": [
    "Souris.C58_json_partial",
    "Souris.C58_refuted_json",
    "Souris.C58_refuted_served",
    "Souris.C58_near_partial",
    "Souris.C58_reread_partial",
    "Souris.C58_fetched_was_sent_partial"
   ],
   "note": "All byte strings. Missing: binary data whose code has one of the lengths that C15 tells (C26_binary_exact) and JSON that its own text does not preserve; with serde_json these are only floats with many digits (C58_json_partial), and they too come back up to two parts in 10^15 (C58_near_partial). Such floats violate the property: bytes that are accepted, stored and answered with the text of another number (C58_refuted_json, through the daemon C58_refuted_served)."
  },
  {
   "property": "C59",
   "status": "proved",
   "theorems": [
    "Souris.C59_concurrent",
    "Souris.C59_served_was_sent"
   ],
   "note": "All histories; the add_db_with_content request never stores anything (C37_refuted_content), so add_kv is the only source. C59_concurrent: also under every interleaving, with the request before the answer."
  },
  {
   "property": "C60",
   "status": "partial",
   "theorems": [
    "Souris.C60_f64_nearest",
    "Souris.C60_f64_exact",
    "Souris.C60_f64_roundtrip",
    "Souris.C60_f32_nearest",
    "Souris.C60_f32_overflow",
    "Souris.C60_f32_exact",
    "Souris.C60_no_panic",
    "Souris.C60_refuted_noncanonical"
   ],
   "note": "All Integers made from native ones, both formats, any rounding; f32 is infinite exactly from 2^128-2^103 on. Violated by non-canonical bytes (C60_refuted_noncanonical); no panic even there."
  },
  {
   "property": "C61",
   "status": "partial",
   "theorems": [
    "Souris.C61_serialise",
    "Souris.C61_any_format",
    "Souris.C61_json_reads",
    "Souris.C61_json_text_partial",
    "Souris.C61_json_value_partial",
    "Souris.C61_refuted_large",
    "Souris.C61_refuted_signed_zero",
    "Souris.C61_refuted_noncanonical",
    "Souris.C61_tree_reads",
    "Souris.C61_tree_writes"
   ],
   "note": "All Integers made from native ones; any self-describing format; serde_json 1.0.129 as documented. Numbers outside -2^63..2^64-1 cannot be read back, signed zero comes back unequal, non-canonical bytes are written as another number (C61_refuted_*)."
  },
  {
   "property": "C62",
   "status": "partial",
   "theorems": [
    "Souris.C62_refuted",
    "Souris.C62_types_partial",
    "Souris.C62_errors",
    "Souris.C62_refuted_marker"
   ],
   "note": "from_bytes never succeeds (C62_refuted). Proved: everything except Store::deser is faithful, for every type whose JSON has no marked objects."
  },
  {
   "property": "C63",
   "status": "partial",
   "theorems": [
    "Souris.C63_polar_partial",
    "Souris.C63_to_polar_partial",
    "Souris.C63_kept",
    "Souris.C63_to_cartesian_partial",
    "Souris.C63_to_cartesian_exact",
    "Souris.C63_refuted_origin"
   ],
   "note": "Every point but the origin, for every library of operations with accuracy between 2^-52 and 1/16 (stated as hypotheses; sampleLibm meets them). The origin gets the argument NaN (C63_refuted_origin). Coefficients beyond 2^53 are first rounded (C60). Missing: that computed parts of a polar number are whole when the exact ones are, which depends on the library; negative fractions are rounded down instead of refused (C10)."
  },
  {
   "property": "C64",
   "status": "proved",
   "theorems": [
    "Souris.C64_english",
    "Souris.C64_optimal",
    "Souris.C64_refused"
   ],
   "note": "Any hash order, all texts and bits, optimality against all prefix-free codes. Finding: # % \\ ` | } are refused (C64_refused)."
  },
  {
   "property": "C65",
   "status": "partial",
   "theorems": [
    "Souris.C65_timestamp",
    "Souris.C65_entry_partial",
    "Souris.C65_type_partial",
    "Souris.C65_refuted_single",
    "Souris.C65_map",
    "Souris.C65_live"
   ],
   "note": "Exact: a value is entered if and only if the answers spell it. Violated for the menu entry SingleFloat, which yields a double (C65_refuted_single). Timestamps: exactly those of the calendar and clock, with the model of chrono (C65_timestamp). dialoguer and f64/ip FromStr are taken as documented or are parameters."
  },
  {
   "property": "C66",
   "status": "partial",
   "theorems": [
    "Souris.C66_refuted",
    "Souris.C66_typable_partial",
    "Souris.C66_integer_partial",
    "Souris.C66_exact_partial"
   ],
   "note": "Single floats, empty strings and empty keys cannot be typed at all (C66_refuted). Which values can be typed is an equivalence (C66_exact_partial), with nothing assumed of std and chrono: every double but not-a-numbers with other bits than two, every address, the dates and times that exist, any length and depth of arrays and maps; files for binary data and texts for integers and JSON are asked for."
  },
  {
   "property": "C67",
   "status": "partial",
   "theorems": [
    "Souris.C67_consent_partial",
    "Souris.C67_refuted_remove",
    "Souris.C67_refuted_race",
    "Souris.C67_remove_entry",
    "Souris.C67_update_entry"
   ],
   "note": "Every command but RemoveDatabase, all answers and outcomes, any interference. RemoveDatabase never asks (C67_refuted_remove); CreateNew clears a database that appeared since the names were listed (C67_refuted_race), so it is proved without interference. RemoveEntry and UpdateEntry never reach their question; C67_remove_entry and C67_update_entry are about the part after the fetch."
  },
  {
   "property": "C68",
   "status": "partial",
   "theorems": [
    "Souris.C68_create",
    "Souris.C68_add_entry",
    "Souris.C68_stored_partial",
    "Souris.C68_remove_database",
    "Souris.C68_error_partial",
    "Souris.C68_refuted_unlink",
    "Souris.C68_refuted_fetch",
    "Souris.C68_refuted_import",
    "Souris.C68_refuted_overwrite"
   ],
   "note": "CreateNew, AddEntry (end to end: the typed value is what the daemon serves, under the chosen name and typed key) and RemoveDatabase report exactly what they did, under any interference and whether files can be deleted or not; an error means no change unless the daemon cannot delete a file (C68_refuted_unlink). ViewAll, RemoveEntry, UpdateEntry, ExportToJSON and ImportFromJSON never end well (C68_refuted_fetch, C68_refuted_import); agreeing to overwrite keeps the old entries (C68_refuted_overwrite)."
  },
  {
   "property": "C69",
   "status": "partial",
   "theorems": [
    "Souris.C69_ends_partial",
    "Souris.C69_no_panic",
    "Souris.C69_refuted_hang",
    "Souris.C69_bounds",
    "Souris.C69_bounds_name"
   ],
   "note": "All commands and scripts. Violated: after picking binary data a closed terminal is asked forever (C69_refuted_hang); that is the only way not to end. No panic in CreateNew, AddEntry, RemoveDatabase and ImportFromJSON; the others pass bytes from the daemon to the deserialiser, see C28. The bounds in the model are proved irrelevant (C69_bounds*)."
  },
  {
   "property": "C70",
   "status": "partial",
   "theorems": [
    "Souris.C70_choice",
    "Souris.C70_choices",
    "Souris.C70_add_works_partial",
    "Souris.C70_create_works",
    "Souris.C70_remove_works",
    "Souris.C70_remove_entry_works",
    "Souris.C70_update_entry_works_partial",
    "Souris.C70_empty_database",
    "Souris.C70_refuted_entry"
   ],
   "note": "The choice is characterised exactly (C70_choice is an equivalence). CreateNew, AddEntry and RemoveDatabase proved to work; AddEntry for storable values of less than 2^64 bytes. The other commands never end well (C68_refuted_fetch, C68_refuted_import). RemoveEntry works (C70_remove_entry_works), UpdateEntry likewise up to what its value dialog enters (C70_update_entry_works_partial); an empty database is reported by both (C70_empty_database). That is once the database has been fetched; run as a whole, neither ever succeeds nor changes anything (C70_refuted_entry)."
  },
  {
   "property": "C71",
   "status": "partial",
   "theorems": [
    "Souris.C71_exact",
    "Souris.C71_near_partial",
    "Souris.C71_bytes",
    "Souris.C71_json_partial",
    "Souris.C71_files",
    "Souris.C71_export",
    "Souris.C71_import_partial",
    "Souris.C71_bad_file",
    "Souris.C71_refuted_export",
    "Souris.C71_refuted_import"
   ],
   "note": "C71_files covers all runs of all commands. C71_export is about the part after the fetch, which is never reached (C68_refuted_fetch); C71_import_partial is the round trip of the two halves, for the stores of C36. ImportFromJSON as a whole never succeeds (C68_refuted_import). Text of serde_json is a parameter, and that it reads back what it printed a hypothesis, in C71_import_partial; C71_json_partial has neither. C71_exact decides every store whose floats have few digits: the exported file is imported as the store exactly if its JSON is and is nested at most 127 deep; C71_near_partial is for other floats. C71_bytes: the file is read byte by byte as from_json_bytes does. Violated as a whole: no run of ExportToJSON writes a file (C71_refuted_export), no run of ImportFromJSON stores anything (C71_refuted_import)."
  },
  {
   "property": "C72",
   "status": "partial",
   "theorems": [
    "Souris.C72_query",
    "Souris.C72_encode",
    "Souris.C72_sync",
    "Souris.C72_async",
    "Souris.C72_fits",
    "Souris.C72_refuted_long",
    "Souris.C72_write_read_partial",
    "Souris.C72_characters",
    "Souris.C72_json"
   ],
   "note": "Every method of both clients over HTTP equals the method of the model used in C52-C57 (C72_sync, C72_async), for names and keys that fit a URI of 65534 bytes; at least 21000 bytes always fit (C72_fits). Violated for longer keys, which neither client can add (C72_refuted_long). form_urlencoded, routing, Query extraction and the URI limit are modelled by the documentation of these crates; that serde_json reads back the strings it wrote is a hypothesis (TextOk), proved for its model (C72_json). Framing, headers and TCP are not modelled. Which characters stay as they are in a query is stated in C72_characters."
  },
  {
   "property": "C73",
   "status": "proved",
   "theorems": [
    "Souris.C73_understood",
    "Souris.C73_refused",
    "Souris.C73_answered",
    "Souris.C73_order",
    "Souris.C73_unambiguous"
   ],
   "note": "Equivalence with a specification of the interface, for all requests. hyper, axum, serde derive and form_urlencoded are modelled by documentation. Bodies are judged by the handlers (C50)."
  },
  {
   "property": "C74",
   "status": "partial",
   "theorems": [
    "Souris.C74_moment",
    "Souris.C74_files_partial",
    "Souris.C74_stays_partial",
    "Souris.C74_refuted_recreated"
   ],
   "note": "Interleavings of requests, cancellations, late deletions of files and the saver, step by step. That one moment is stored is proved in full (C74_moment); the files hold it unless a write fails unreported (C48) or an rm_db of an earlier database of the same name is still about to delete the file, which destroys it (C74_refuted_recreated)."
  },
  {
   "property": "C75",
   "status": "proved",
   "theorems": [
    "Souris.C75_progress",
    "Souris.C75_stops",
    "Souris.C75_save_bounded",
    "Souris.C75_saves_after_stop"
   ],
   "note": "Progress and bounds in the interleaving semantics of C74; fairness of the scheduler is not assumed, so this is possibility of progress and a bound on steps, not a bound in time; with fairness see C90."
  },
  {
   "property": "C76",
   "status": "proved",
   "theorems": [
    "Souris.C76_read",
    "Souris.C76_removed",
    "Souris.C76_real"
   ],
   "note": "From C39 restated on a map of maps (C39_map_of_maps); contents given to add_db_with_content are maps (keys different), as HashMap guarantees."
  },
  {
   "property": "C77",
   "status": "partial",
   "theorems": [
    "Souris.C77_recoverable_partial",
    "Souris.C77_unambiguous_partial",
    "Souris.C77_value",
    "Souris.C77_refuted_one_character",
    "Souris.C77_disk_partial",
    "Souris.C77_lz4_partial"
   ],
   "note": "Proved by a corrected reader (Lemmas/Format.lean), for stores of size below 2^40 (sizes and lengths are written in full only up to usize) without non-finite floats in JSON and without out-of-range timestamps, and end to end for the directory after a save without failures (C77_disk_partial). Violated when all text in a database is one repeated character: its code has no bits, so the number of characters is lost and different databases have the same file (C77_refuted_one_character)."
  },
  {
   "property": "C78",
   "status": "partial",
   "theorems": [
    "Souris.C78_timestamp_partial",
    "Souris.C78_timestamp_text_partial",
    "Souris.C78_refuted_leap",
    "Souris.C78_bytes",
    "Souris.C78_literal_partial",
    "Souris.C78_same_type_partial",
    "Souris.C78_refuted_empty",
    "Souris.C78_refuted_types",
    "Souris.C78_refuted_wrapped",
    "Souris.C78_bare_same",
    "Souris.C78_refuted_bare_map",
    "Souris.C78_json",
    "Souris.C78_scalar_partial",
    "Souris.C78_refuted_json_null",
    "Souris.C78_json_partial",
    "Souris.C78_std_partial",
    "Souris.C78_refuted_std"
   ],
   "note": "An equivalence for characters, strings, bytes, booleans, integers, complex numbers with integer parts, null and arrays of these (C78_literal_partial), whichever characters std escapes; within one type for all but arrays and maps, with nothing assumed of std, chrono and serde_json (C78_scalar_partial), JSON of any depth with any floats included (C78_json). Violated across types: [] is both no bytes and no elements (C78_refuted_empty), 1.0 prints as 1, JSON null as null (C78_refuted_types, C78_refuted_json_null, C78_refuted_std); and by integers from made-up bytes (C78_refuted_wrapped). Tables of maps come from comfy_table and are a parameter. In builds without std values without maps are printed the same (C78_bare_same) and maps in braces with keys that are not quoted, so that different maps look alike (C78_refuted_bare_map)."
  },
  {
   "property": "C79",
   "status": "proved",
   "theorems": [
    "Souris.C79_file",
    "Souris.C79_linear",
    "Souris.C79_disk"
   ],
   "note": "For values that exist at run time (Dated: fields in range, timestamps are dates) of size below 2^56. No assumption on lz4. C79_file is the sharp form, C79_linear the simple one, C79_disk for the directory after a save without failures."
  },
  {
   "property": "C80",
   "status": "partial",
   "theorems": [
    "Souris.C80_value_partial",
    "Souris.C80_daemon_partial",
    "Souris.C80_refuted_run",
    "Souris.C80_concurrent_partial",
    "Souris.C80_lz4_concurrent_partial",
    "Souris.C80_json_value_partial",
    "Souris.C80_json_daemon_partial",
    "Souris.C80_lz4_value_partial",
    "Souris.C80_lz4_daemon_partial"
   ],
   "note": "Proved without runs of more than 255 copies of one byte as a whole binary value, assuming that lz4 expands at most 255 times and that printed JSON is at most 31 times as long as the text it was parsed from; both are proved for the models of serde_json and lz4_flex (C80_lz4_value_partial, C80_lz4_daemon_partial). Violated by such runs: at most 12 bytes are read as up to 2^63-1 copies of a byte, also by the daemon (C80_refuted_run). The daemon part holds under every interleaving (C80_concurrent_partial, C80_lz4_concurrent_partial); uploads of whole databases are always refused (C33_refuted). Reserved but unused capacity is not counted."
  },
  {
   "property": "C81",
   "status": "proved",
   "theorems": [
    "Souris.C81_isolated",
    "Souris.C81_contents",
    "Souris.C81_concurrent"
   ],
   "note": "Requests one at a time, and concurrent requests (C81_concurrent: a run restricted to one database is a run of a daemon that has only that database, with the same replies). Files of a database may list its keys in another order (Reply.Same). Uploads of whole databases are always refused (C33_refuted), hence without effect."
  },
  {
   "property": "C82",
   "status": "proved",
   "theorems": [
    "Souris.C82_retry"
   ],
   "note": "Requests one at a time, as sent by HTTP; uploads of whole databases are always refused (C33_refuted)."
  },
  {
   "property": "C83",
   "status": "partial",
   "theorems": [
    "Souris.C83_different",
    "Souris.C83_near_partial",
    "Souris.C83_text_partial",
    "Souris.C83_refuted_deep",
    "Souris.C83_refuted_float",
    "Souris.C83_print"
   ],
   "note": "serde_json 1.0.129 (default features) and ryu are modelled from their sources (Model/JsonText, Model/FloatArith). That the printed text says exactly the value, and that different values have different texts, is proved for all values (C83_print, C83_different). That serde_json itself reads it back is proved for nesting up to 127 and floats nearest to a decimal of at most 15 digits (C83_text_partial); with other floats up to 1.7975*10^308 it reads the same JSON, floats off by at most two parts in 10^15 and with the same sign (C83_near_partial). Violated by floats with many digits: 9007199254740991.0 is read as another number (C83_refuted_float); and by deeper values, which no text is read as (C83_refuted_deep)."
  },
  {
   "property": "C84",
   "status": "partial",
   "theorems": [
    "Souris.C84_bytes",
    "Souris.C84_bytes_sound",
    "Souris.C84_bytes_partial",
    "Souris.C84_sound_partial",
    "Souris.C84_close_partial",
    "Souris.C84_exact_partial",
    "Souris.C84_complete_partial",
    "Souris.C84_range_partial",
    "Souris.C84_refuted_float",
    "Souris.C84_refuted_deep",
    "Souris.C84_made"
   ],
   "note": "From bytes, read one by one with the check of UTF-8 at the end of every string, the outcome is that of decoding them and reading the text (C84_bytes, C84_bytes_sound, C84_bytes_partial). Sound for all texts (C84_sound_partial, C84_made), up to the rounding of numbers with many digits, which are read with an error of at most the 10^15-th part (C84_close_partial); exact and complete for nesting up to 127, integers of 64 bits and numbers with few digits (C84_exact_partial); every JSON text with nesting up to 127 whose numbers fit floats is accepted (C84_complete_partial), numbers that do not fit are rejected (C84_range_partial), in both cases with 5 digits of the largest float and for numbers of up to a gigabyte of text. Violated by numbers with many digits (C84_refuted_float) and deeper nesting (C84_refuted_deep)."
  },
  {
   "property": "C85",
   "status": "partial",
   "theorems": [
    "Souris.C85_timestamp_partial",
    "Souris.C85_form_partial",
    "Souris.C85_none_partial",
    "Souris.C85_store_partial",
    "Souris.C85_refuted_integer"
   ],
   "note": "Proved for integers that come from Rust integers outside -2^64..-2^63-1 (C85_form_partial, C85_none_partial, C85_store_partial), with the names of members and type numbers spelled out in Spec/JsonForm. Violated for the integers left out: they become other numbers (C85_refuted_integer)."
  },
  {
   "property": "C86",
   "status": "partial",
   "theorems": [
    "Souris.C86_reads",
    "Souris.C86_print",
    "Souris.C86_iso_partial",
    "Souris.C86_different_partial",
    "Souris.C86_refuted_reread",
    "Souris.C86_refuted_leap",
    "Souris.C86_refuted_every"
   ],
   "note": "chrono 0.4.38 is modelled from its source (Model/ChronoText). Reading is an equivalence with a grammar for all texts (C86_reads); printing is exact and tells all timestamps apart whose leap seconds are in second 59 (C86_print, C86_different_partial); with a T in place of the space the text is read back (C86_iso_partial). Violated: what is printed is never accepted, for the space is not a T (C86_refuted_reread, C86_refuted_every); leap seconds elsewhere print like other timestamps (C86_refuted_leap)."
  },
  {
   "property": "C87",
   "status": "partial",
   "theorems": [
    "Souris.C87_print_double",
    "Souris.C87_print_single",
    "Souris.C87_read_double_partial",
    "Souris.C87_reread_double",
    "Souris.C87_single_text",
    "Souris.C87_double_text",
    "Souris.C87_refuted_long",
    "Souris.C87_ipv4",
    "Souris.C87_read_ipv6",
    "Souris.C87_print_ipv6",
    "Souris.C87_reread_ipv6",
    "Souris.C87_reenter"
   ],
   "note": "core 1.80 is modelled from its source (Model/StdText), with the search for the shortest digits and the rounding in place of its fast paths. Addresses are proved in full, as equivalences with the grammar of RFC 4291 and with RFC 5952 (C87_ipv4, C87_read_ipv6, C87_print_ipv6, C87_reread_ipv6); printing of floats and reading back in full (C87_print_double, C87_print_single, C87_reread_double); reading for texts up to 65000 characters (C87_read_double_partial). Violated by longer ones, for the exponent is cut off: 0.1 can be read as 0 (C87_refuted_long). Not-a-numbers are read back as not-a-numbers, not with the same bits."
  },
  {
   "property": "C88",
   "status": "partial",
   "theorems": [
    "Souris.C88_bare_partial",
    "Souris.C88_text_partial",
    "Souris.C88_refuted_leap"
   ],
   "note": "For all values whose integers come from Rust integers, whose JSON serde_json can make, and whose timestamps are valid with leap seconds in second 59 only (C88_text_partial); other leap seconds are misprinted (C88_refuted_leap). Which characters std counts as printable and how comfy_table lays out rows are parameters. The same for builds without std, where maps are in braces (C88_bare_partial)."
  },
  {
   "property": "C89",
   "status": "partial",
   "theorems": [
    "Souris.C89_written",
    "Souris.C89_reads",
    "Souris.C89_lossless",
    "Souris.C89_only_partial",
    "Souris.C89_unambiguous",
    "Souris.C89_refuted_offset",
    "Souris.C89_too_small",
    "Souris.C89_panics",
    "Souris.C89_bounded",
    "Souris.C89_size"
   ],
   "note": "lz4_flex 0.11.3 without its default features is modelled from the block format and from knowledge of the crate, whose source is not in the repository (Model/Lz4); what its hash table finds, how its search speeds up and what new memory contains are parameters. Writing and reading are proved in full for all data and all tables of earlier positions, against the format as an inductive relation, with the rules for the end of a block. Violated in one respect: an offset of 0 is not rejected and copies what is in memory (C89_refuted_offset)."
  },
  {
   "property": "C90",
   "status": "proved",
   "theorems": [
    "Souris.C90_refines",
    "Souris.C90_order",
    "Souris.C90_answered",
    "Souris.C90_saves",
    "Souris.C90_stops"
   ],
   "note": "tokio::sync::Mutex hands the lock on in the order of asking (its documented fairness); the queue is modelled in front of the semantics of C74. The scheduler is assumed to be weakly fair: who can work from some point on without interruption, works. The answer of the file system to a deletion is one that it can give. demo_fair shows that fair endless runs exist."
  },
  {
   "property": "C91",
   "status": "proved",
   "theorems": [
    "Souris.C91_messages",
    "Souris.C91_bodies",
    "Souris.C91_printed",
    "Souris.C91_refusals",
    "Souris.C91_quotes",
    "Souris.C91_contents",
    "Souris.C91_float_messages",
    "Souris.C91_creation_messages"
   ],
   "note": "Every variant of the nine error types is modelled with its Display text, its derived Debug text and the answers and outputs made from them (Model/ErrorText); errors of other libraries are arbitrary texts. The tenth, FloatToIntegerConversionError, contains a float: C91_float_messages is about those that conversions return. CreationResult is told by C91_creation_messages. C91_refusals connects the texts with the replies of the modelled daemon."
  },
  {
   "property": "C92",
   "status": "partial",
   "theorems": [
    "Souris.C92_source_iff",
    "Souris.C92_root_cause_partial",
    "Souris.C92_ends",
    "Souris.C92_refuted_store",
    "Souris.C92_refuted_client"
   ],
   "note": "Violated by StoreSerError::Binary and by ClientError::Reqwest, which do not give their source (C92_refuted_store for a file with an unknown compression byte, C92_refuted_client). C92_source_iff says exactly when the source is given; without the two variants the claim is proved for all errors. What lies below errors of other libraries is not followed."
  },
  {
   "property": "C93",
   "status": "partial",
   "theorems": [
    "Souris.C93_concurrent_partial",
    "Souris.C93_parts_partial",
    "Souris.C93_depth_partial",
    "Souris.C93_json",
    "Souris.C93_served_partial",
    "Souris.C93_refuted_unlimited",
    "Souris.C93_refuted_daemon"
   ],
   "note": "Violated: one byte opens an array of one element and the daemon has no body limit, so that for every n a body of n+1 bytes is stored and served as a value nested n deep (C93_refuted_unlimited, C93_refuted_daemon). Proved: parts and levels are bounded by the bytes read, for a served value by the body of the request that set it (under every interleaving: C93_concurrent_partial), and JSON inside has at most 127 levels. The stack that Rust uses per level is not modelled."
  },
  {
   "property": "C94",
   "status": "partial",
   "theorems": [
    "Souris.C94_written",
    "Souris.C94_file",
    "Souris.C94_understood_partial",
    "Souris.C94_accepted_partial",
    "Souris.C94_refuted_padding",
    "Souris.C94_refuted_year",
    "Souris.C94_refuted_length"
   ],
   "note": "Spec/Wire.lean describes the format without the functions. Proved: everything written, maps and empty arrays and whole files included, is in it; on less than 2 MiB everything read was in its laxer form, and every word of that form is read as its value if it has no map and no empty array (C26: those are never read). Violated: bits that fill up the last byte of a coded text change the text (C94_refuted_padding), a year of 2^32-1 is read as -1 (C94_refuted_year), the empty array takes the value that follows as its element (C94_refuted_length). Above 2 MiB the number of bytes of a coded text is computed with f32 (C15)."
  },
  {
   "property": "C95",
   "status": "partial",
   "theorems": [
    "Souris.C95_async_partial",
    "Souris.C95_sync_partial",
    "Souris.C95_success",
    "Souris.C95_reported",
    "Souris.C95_survives_partial",
    "Souris.C95_created",
    "Souris.C95_refuted_panic",
    "Souris.C95_refuted_status",
    "Souris.C95_bytes"
   ],
   "note": "For every server as an arbitrary function of requests and its own state; redirections are left out and a body arrives whole. C95_async_partial and C95_sync_partial give the exact outcome of every call for every answer; C95_bytes: JSON bodies are read byte by byte. Violated: a success status other than 200 and 201 makes the calls that create a database panic (C95_refuted_panic); the asynchronous list of names accepts any status and the synchronous client every status below 400 (C95_refuted_status). get_store of the asynchronous client sends nothing (C53)."
  },
  {
   "property": "C96",
   "status": "partial",
   "theorems": [
    "Souris.C96_size",
    "Souris.C96_bytes_partial",
    "Souris.C96_refuted_map",
    "Souris.C96_refuted_store",
    "Souris.C96_refuted_tree",
    "Souris.C96_untied_partial",
    "Souris.C96_store_partial"
   ],
   "note": "Violated: every map with two entries is written with other bytes in another order (C96_refuted_map), binary data under a tree depends on how equal counts are ordered (C96_refuted_tree), and of a database not even the size is fixed (C96_refuted_store: one entry, 32 or 33 bytes). Proved: the size of a value never depends on any of this (C96_size, from optimality of the code), nor do the bytes of a value without maps of two entries and without such binary data (C96_bytes_partial), nor, if no two groups of symbols occur equally often, those of binary data under a tree (C96_untied_partial) and of a whole file (C96_store_partial). lz4 is taken to be a function."
  },
  {
   "property": "C97",
   "status": "partial",
   "theorems": [
    "Souris.C97_integer_doesnt_crash",
    "Souris.C97_parse_valid_u32",
    "Souris.C97_parse_valid_i32",
    "Souris.C97_back_to_original",
    "Souris.C97_back_to_original_other_size",
    "Souris.C97_serde_works_signed_partial",
    "Souris.C97_refuted_serde_zero",
    "Souris.C97_serde_works_unsigned",
    "Souris.C97_test_ch",
    "Souris.C97_test_str",
    "Souris.C97_test_bin",
    "Souris.C97_test_bool",
    "Souris.C97_test_polar_form_ser",
    "Souris.C97_test_int",
    "Souris.C97_refuted_partialeq_length",
    "Souris.C97_refuted_partialeq_bits",
    "Souris.C97_test_partialeq_partial",
    "Souris.C97_test_hash",
    "Souris.C97_nodes_from_empty_string",
    "Souris.C97_nodes_from_one_char_repeated",
    "Souris.C97_huffman_doesnt_crash",
    "Souris.C97_works_on_ascii_strings",
    "Souris.C97_works_on_strings",
    "Souris.C97_ser_works_on_strings",
    "Souris.C97_test_rle",
    "Souris.C97_test_lz",
    "Souris.C97_test_huffman",
    "Souris.C97_cases"
   ],
   "note": "Model/RepoTests.lean is every test of the project with its random input as a parameter. Two of the tests do not hold for all inputs: serde_works_signed fails for 0 and for nothing else, test_partialeq fails if equal numbers come with different lengths or different numbers differ only in bits that are masked out (exactly when: C97_test_partialeq_partial). All others are proved for every input; the limits are 2 MiB for Huffman-coded data, 2^19 characters for a stored coder, 2^62 bytes for the other compressors. test_hash assumes that the hasher tells single bytes apart; a serde_json error counts as the error that the test accepts."
  },
  {
   "property": "C98",
   "status": "partial",
   "theorems": [
    "Souris.C98_ignored",
    "Souris.C98_ignored_json",
    "Souris.C98_text_sound",
    "Souris.C98_text_cartesian",
    "Souris.C98_text_polar",
    "Souris.C98_reads",
    "Souris.C98_cartesian_partial",
    "Souris.C98_polar_partial",
    "Souris.C98_cartesian_text_partial",
    "Souris.C98_polar_text_partial",
    "Souris.C98_refuted_infinite",
    "Souris.C98_refuted_large",
    "Souris.C98_refuted_signed_zero",
    "Souris.C98_direct_sound",
    "Souris.C98_direct_cartesian",
    "Souris.C98_direct_polar",
    "Souris.C98_direct_cartesian_partial",
    "Souris.C98_direct_polar_partial",
    "Souris.C98_refuted_direct_large"
   ],
   "note": "For the value tree of serde_json (to_value, from_value), for the text of that tree, and for writing straight to text and reading straight from it. What is read is exactly the specified objects, as the numbers they say (C98_reads). Parts that fit 64 bits come back with the same values and equal, except the zero of a signed type; larger ones are an error of writing, both exactly (C98_cartesian_partial). Finite floats come back bit by bit through the tree and within two parts in 10^15 through text; an infinity or NaN is written as null, which is then refused (C98_polar_partial, C98_refuted_infinite). Straight from text, what is read is exactly the texts that say a number, as objects with members in any order and with others beside them, or as arrays (C98_direct_sound, C98_direct_cartesian, C98_direct_polar; completeness for floats is shown for numbers up to 1.7976e308), for any way of skipping other members, and for the one of serde_json, which skips exactly JSON of any depth, with numbers of any size and unpaired surrogates (C98_ignored, C98_text_sound, C98_text_cartesian, C98_text_polar). Straight to text every number is written; integers come back exactly if they fit 64 bits, finite floats within two parts in 10^15, null is refused (C98_direct_cartesian_partial, C98_direct_polar_partial)."
  },
  {
   "property": "C99",
   "status": "partial",
   "theorems": [
    "Souris.C99_double",
    "Souris.C99_single",
    "Souris.C99_reread_double",
    "Souris.C99_reread_timestamp_partial",
    "Souris.C99_integer",
    "Souris.C99_type",
    "Souris.C99_debug_partial",
    "Souris.C99_end_partial",
    "Souris.C99_store_partial",
    "Souris.C99_refuted_leap"
   ],
   "note": "For both layouts and all nestings; which characters std escapes is a parameter of which nothing is assumed. Names of timezones are taken to be without spaces, commas and closing brackets, as all of the IANA names are, and JSON to be as serde_json can make it. The text tells the type of any value at all (C99_type) and determines every value up to the bits of a NaN (C99_debug_partial, C99_store_partial), and it shows where it ends (C99_end_partial). Violated by leap seconds elsewhere than in second 59, which chrono shows like the next second (C99_refuted_leap). std, chrono and serde_json are modelled from knowledge of their source."
  },
  {
   "property": "C100",
   "status": "proved",
   "theorems": [
    "Souris.C100_texts",
    "Souris.C100_create",
    "Souris.C100_add_entry",
    "Souris.C100_remove_database"
   ],
   "note": "C100_texts: which message a line is and all that it names is determined by its text, for any set of characters that std escapes; values and databases in it are printed as C78 and C99 tell. C100_create, C100_add_entry and C100_remove_database: the last line against the contents of the daemon before and after; the other commands never end well (C68_refuted_fetch, C68_refuted_import). Prompts, drawn by dialoguer, are not modelled; paths are texts."
  },
  {
   "property": "C101",
   "status": "partial",
   "theorems": [
    "Souris.C101_directory_partial",
    "Souris.C101_same_directory",
    "Souris.C101_working_directory",
    "Souris.C101_untouched",
    "Souris.C101_created",
    "Souris.C101_starts",
    "Souris.C101_no_directory",
    "Souris.C101_second",
    "Souris.C101_again_partial",
    "Souris.C101_refuted_garbled",
    "Souris.C101_relative"
   ],
   "note": "Violated by a BASE_LOCATION that is not Unicode, which is passed over in silence (C101_refuted_garbled). Otherwise proved for all settings and disks: the directory (C101_directory_partial, C101_same_directory), what is created and when it is refused (C101_created, C101_starts, C101_no_directory, C101_second), and that nothing else changes (C101_untouched). With relative paths the working directory is one of the settings (C101_relative, C101_working_directory). That the saved databases are found again holds for any deserialiser that can read them, as in C45 (C101_again_partial). dirs and create_dir_all are modelled by their documentation and source."
  },
  {
   "property": "C102",
   "status": "proved",
   "theorems": [
    "Souris.C102_exact",
    "Souris.C102_unique",
    "Souris.C102_every",
    "Souris.C102_hosts",
    "Souris.C102_asked",
    "Souris.C102_help",
    "Souris.C102_help_word",
    "Souris.C102_version"
   ],
   "note": "C102_exact is an equivalence between what the parser accepts and the grammar CommandLine, for all argument lists; C102_every and C102_hosts say what can be expressed, C102_asked, C102_help, C102_help_word and C102_version when help and version are shown. Clap 4.5.20 is not in the repository and is modelled as known; arguments are taken to be UTF-8."
  },
  {
   "property": "C103",
   "status": "partial",
   "theorems": [
    "Souris.C103_written",
    "Souris.C103_exact",
    "Souris.C103_settled",
    "Souris.C103_store_exact",
    "Souris.C103_same_partial",
    "Souris.C103_refuted_timestamp",
    "Souris.C103_text_near_partial",
    "Souris.C103_refuted_text_float",
    "Souris.C103_text_partial"
   ],
   "note": "C103_exact and C103_store_exact are equivalences: what was read from JSON is the same after it was written and read once more exactly if the text of each of its timestamps is read as this timestamp and, for a store, it is not one map under the key JSON. With the text of chrono no timestamp is (C103_refuted_timestamp), so the property holds exactly without timestamps. C103_written (it can always be written) and C103_settled (the JSON stays the same) hold for all. C103_text_partial is the same for texts, printed compactly or indented, whose floats have few digits. C103_text_near_partial is for any floats not next to the largest: none changes by more than two parts in 10^15; that they change is C103_refuted_text_float."
  },
  {
   "property": "C104",
   "status": "proved",
   "theorems": [
    "Souris.C104_exact",
    "Souris.C104_written",
    "Souris.C104_flag",
    "Souris.C104_store_exact"
   ],
   "note": "Equivalences for all values and stores whose keys are distinct, as those of hash maps are; for stores the JSON inside is taken to be as serde_json can make it. C104_flag: the flag makes a difference exactly if something needs a marker; C104_exact and C104_store_exact: what comes back without markers."
  },
  {
   "property": "C105",
   "status": "partial",
   "theorems": [
    "Souris.C105_depth",
    "Souris.C105_exact",
    "Souris.C105_near_partial",
    "Souris.C105_refuted_deep",
    "Souris.C105_refuted_float",
    "Souris.C105_refuted_timestamp"
   ],
   "note": "C105_exact is an equivalence for all stores whose floats have few digits: the text is imported as the store exactly if the JSON is and is nested at most 127 deep. C105_depth: beyond that depth no text at all is imported as the store (C105_refuted_deep). C105_near_partial: with any floats not next to the largest, none changes by more than two parts in 10^15; that they change is C105_refuted_float. C105_refuted_timestamp: no store that holds a timestamp comes back."
  },
  {
   "property": "C106",
   "status": "partial",
   "theorems": [
    "Souris.C106_un_rle",
    "Souris.C106_un_lz",
    "Souris.C106_un_huff_partial",
    "Souris.C106_compress",
    "Souris.C106_refuted_long",
    "Souris.C106_create",
    "Souris.C106_refuted_empty",
    "Souris.C106_decode_partial",
    "Souris.C106_refuted_one",
    "Souris.C106_deserialise",
    "Souris.C106_bits_partial",
    "Souris.C106_serialise",
    "Souris.C106_refuted_database"
   ],
   "note": "Model/Benches.lean is every benchmark of the crate, with the file and the number of rounds as parameters (the order of hash maps is taken to be the same in all rounds). Compressing, un-rle, un-lz and deserialising a coder are proved for all files that fit in memory. Violated: deserialise_store never measures how a database is read, for no file at all (C106_refuted_database, from C33); the empty file makes all benchmarks of coders panic (C106_refuted_empty), with a file of one repeated character nothing is decoded (C106_refuted_one), and with 2^24 + 1 digits un-huff panics (C106_refuted_long). un-huff is proved up to 2 MiB, the bits up to 2^19 characters."
  },
  {
   "property": "C107",
   "status": "partial",
   "theorems": [
    "Souris.C107_stream",
    "Souris.C107_cut",
    "Souris.C107_truncated",
    "Souris.C107_parts",
    "Souris.C107_written_partial",
    "Souris.C107_prefix_free_partial",
    "Souris.C107_request",
    "Souris.C107_refuted_trailing",
    "Souris.C107_refuted_request",
    "Souris.C107_file_partial",
    "Souris.C107_refuted_file"
   ],
   "note": "C107_stream: whatever bytes have arrived, more bytes change only the answer that there are not enough. Hence C107_cut, an exact account: anything that is read as a value and is cut is read as the same value if all bytes of the value are left, and refused for being too short otherwise; C107_parts says the same of integers, bit sequences, complex numbers, trees and binary data on their own. C107_written_partial for what ser writes, C107_prefix_free_partial: no message begins with another; C107_request: the daemon answers 400 and keeps its state; C107_file_partial: each beginning of the file of any store is refused for being too short. Missing: maps as values, which are never read at all (C33_refuted), and contents of which the length is lost (C25_exact). Violated for added bytes: any bytes behind a value or a file are ignored, by deser (C107_refuted_trailing, C107_refuted_file) and by the daemon, which does and answers the same as without them (C107_refuted_request)."
  },
  {
   "property": "C108",
   "status": "partial",
   "theorems": [
    "Souris.C108_whole",
    "Souris.C108_nothing",
    "Souris.C108_lock",
    "Souris.C108_silent",
    "Souris.C108_refuted_cache"
   ],
   "note": "C108_whole: under every interleaving the databases are those after whole requests one after another, each at most once. C108_nothing: if the client of add_kv, rm_kv, clear_db, add_db_with_content, get_value or the list of names goes away before the answer, the request has not been carried out and never will be; only add_db, rm_db and get_db, which wait after their work, may have been. C108_lock: the lock is free of it. C108_silent: it is not answered. Violated for whole-database reads (C108_refuted_cache): for every database and all its contents, when the client of the add_db that empties it goes away while the cache is told, every get_db afterwards is answered with the old contents. The deletion of the file in rm_db runs on a thread of its own and is not part of the interleaving model."
  },
  {
   "property": "C109",
   "status": "proved",
   "theorems": [
    "Souris.C109_one",
    "Souris.C109_taken",
    "Souris.C109_created",
    "Souris.C109_winner",
    "Souris.C109_someone"
   ],
   "note": "C109_one: two additions that were both told the key was not there have a removal of it between them (Op.Removes, not Apart). C109_taken: likewise two successful removals and something that stores. C109_created: likewise two add_db answered with 201 and rm_db. C109_winner: without anything that touches the key, all other additions are told that it was found (or that there is no database yet), every value read under the key is the first one, also at the end. C109_someone: whoever is told that the key was found lost to another addition, which was told that it is the first, if it was told anything. add_db_with_content, whose statuses are the wrong way round (C42), is left out of the creations."
  },
  {
   "property": "C110",
   "status": "partial",
   "theorems": [
    "Souris.C110_forward_partial",
    "Souris.C110_refuted_gone"
   ],
   "note": "C110_forward_partial: under every interleaving each answer with contents can be given a moment at which the database was written as these bytes, not later than the answer, and in the order of the answers the moments do not go back. (They may lie behind the present; that is C38.) Violated for the answer that there is no such database (C110_refuted_gone): for every database and all its contents, rm_db can be answered, then a get_db with 404, and a get_db called after both with all that was in the database."
  },
  {
   "property": "C111",
   "status": "proved",
   "theorems": [
    "Souris.C111_race_free",
    "Souris.C111_get_db",
    "Souris.C111_same_reads"
   ],
   "note": "C111_race_free: two runs from the same databases with the same requests, all answered (get_db apart), in which any two related requests precede each other in the same order, end with the same databases, key by key; every reply is the same except the status of add_db_with_content (which by C42 does not tell the outcome anyway), and lists of names are permutations. The two runs may have different hash orders. C111_get_db: if no change of a database is under way beside a get_db of it, each get_db is answered with the contents at its call, or that there is no such database; C110_refuted_gone and C38_refuted show that the hypothesis is needed. C111_same_reads: if get_db is among the ordered requests, the answers to each get_db in the two runs are files of the same contents, or both say that there is no such database. A request whose client goes away counts as never ending."
  },
  {
   "property": "C112",
   "status": "partial",
   "theorems": [
    "Souris.C112_at_once",
    "Souris.C112_get_db",
    "Souris.C112_db_then_key",
    "Souris.C112_refuted_mixed"
   ],
   "note": "C112_at_once: two reads of keys, the second called after the first was answered, are answered from the contents before or after the only change, and not from those after and then from those before. C112_get_db: a get_db is answered from the whole contents before or the whole contents after. C112_db_then_key: a read of a key that is called after a get_db was answered does not go back either. Two get_db, one after the other, are C110. Violated for a get_db after the read of a key (C112_refuted_mixed): a key is reported gone after clear_db, and a later get_db still has it, from a copy that was cached between the invalidation and the change."
  },
  {
   "property": "C113",
   "status": "proved",
   "theorems": [
    "Souris.C113_requests",
    "Souris.C113_since"
   ],
   "note": "C113_since: for any two moments of a run, the file is unchanged, deleted, or holds what the database contained at a moment between them (a prefix of it only when a write of it went wrong); C113_requests: in terms of the requests, these contents result from an order of requests that explains their replies and has every request that was answered before the first moment. saving_now: what a save has still to write is what the databases contain now. Names are one path component and not meta."
  },
  {
   "property": "C114",
   "status": "partial",
   "theorems": [
    "Souris.C114_written",
    "Souris.C114_list_partial",
    "Souris.C114_refuted_removed"
   ],
   "note": "C114_list_partial: true when no save is under way at the first look. C114_refuted_removed: false in general, since the list is written after the lock was released: a database is removed in the gap, rm_db is answered with success and the file is deleted, and then the save puts its name on the list. C114_written: a database is listed only if its file was written in that save without a reported failure."
  },
  {
   "property": "C115",
   "status": "proved",
   "theorems": [
    "Souris.C115_gone"
   ],
   "note": "C115_gone: after rm_db was answered with success there is no file of that name in any later state up to which no database of that name existed. Names are one path component and not meta; the base directory exists when the file is deleted. That the file of a new database of the same name may be deleted too is C51_refuted_recreated."
  },
  {
   "property": "C116",
   "status": "partial",
   "theorems": [
    "Souris.C116_restart_partial",
    "Souris.C116_refuted"
   ],
   "note": "C116_restart_partial: true for every deserialiser that reads back the stores in question, whatever requests run beside the last save. C116_refuted: false with the deserialiser of the code, which reads no store (C33_refuted), so that the server does not start again."
  }
 ]
}