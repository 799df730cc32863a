{"id": "C01", "title": "Native integers survive Integer", "statement": "For every Rust integer type T and every n: T, T::try_from(Integer::from(n)) returns Ok(n).", "quantifier": "all 12 integer types and all of their values (up to 2^128 values each)", "why_tests_cant": "The value space is 2^8..2^128 per type; the proptests sample only u32 and i32.", "anchors": ["crates/sourisdb/src/types/integer.rs: from_signed!, from_unsigned!, new_x!"]}
{"id": "C02", "title": "Narrowing an Integer never changes the number", "statement": "For every Integer i built from a native integer and every Rust integer type T, T::try_from(i) returns Ok(m) only if m is numerically equal to i, and returns an error exactly when i does not fit in T.", "quantifier": "all source types, all source values, all 12 target types", "why_tests_cant": "144 type pairs times up to 2^128 values; the wrong answers sit on sign-bit boundaries that sampling misses.", "anchors": ["crates/sourisdb/src/types/integer.rs: TryFrom<Integer> for $t (from_signed!, from_unsigned!)"]}
{"id": "C03", "title": "Integer byte format round-trips and is self-delimiting", "statement": "For every Integer i that the public API can build, Integer::deser applied to the bytes of i.ser() followed by any suffix succeeds, consumes exactly those bytes, and yields an Integer with the same sign state denoting the same number.", "quantifier": "all constructible Integers, all byte prefixes and suffixes around them in the cursor", "why_tests_cant": "Unbounded choice of surrounding bytes and a 2^128 value space.", "anchors": ["crates/sourisdb/src/types/integer.rs: Integer::ser, Integer::deser"]}
{"id": "C04", "title": "A round-tripped Integer equals the original", "statement": "For every Integer i built from a native integer, the Integer obtained by ser then deser compares == to i.", "quantifier": "all 12 source types and all values", "why_tests_cant": "Equality is on the used-byte prefix, so it fails only on isolated representations.", "anchors": ["crates/sourisdb/src/types/integer.rs: PartialEq for Integer, Integer::ser, Integer::deser"]}
{"id": "C05", "title": "Integer equality is numeric equality", "statement": "For all native integers m, n of any types, Integer::from(m) == Integer::from(n) iff m and n are the same number; == is reflexive, symmetric and transitive on all Integers.", "quantifier": "all pairs of types and values", "why_tests_cant": "Pairs of 2^128-sized domains.", "anchors": ["crates/sourisdb/src/types/integer.rs: PartialEq for Integer"]}
{"id": "C06", "title": "Integer hash agrees with equality", "statement": "Whenever two Integers compare ==, they feed identical data to the hasher.", "quantifier": "all pairs of Integers", "why_tests_cant": "A HashMap key contract over all pairs.", "anchors": ["crates/sourisdb/src/types/integer.rs: Hash for Integer"]}
{"id": "C07", "title": "Integer encoding size is as documented", "statement": "Integer::ser yields one byte for numbers whose byte fits ONE_BYTE_MAX_SIZE, otherwise 1 + (number of significant bytes); never more than 17 bytes, and never longer than the fixed-width encoding plus one byte.", "quantifier": "all constructible Integers", "why_tests_cant": "Every value counts; size regressions occur at byte boundaries.", "anchors": ["crates/sourisdb/src/types/integer.rs: Integer::ser, ONE_BYTE_MAX_SIZE"]}
{"id": "C08", "title": "Decimal text round-trips", "statement": "For every Integer i built from a native integer, Integer::from_str(&i.to_string()) succeeds and denotes the same number; from_str never panics on any string.", "quantifier": "all native integers; all strings for the no-panic half", "why_tests_cant": "Unbounded strings and 2^128 values.", "anchors": ["crates/sourisdb/src/types/integer.rs: Display, FromStr"]}
{"id": "C09", "title": "Integer arithmetic is exact or loud", "statement": "For all Integers built from native integers, +, -, *, / return the exact (truncated for /) mathematical result, or panic; they never return a wrong number (debug build overflow checks).", "quantifier": "all pairs of Integers, four operators", "why_tests_cant": "Wrap-around happens only near 2^127.", "anchors": ["crates/sourisdb/src/types/integer.rs: integer_trait_impl!"]}
{"id": "C10", "title": "Float to Integer conversion is exact or an error", "statement": "Integer::try_from(f) for f64 and f32 succeeds exactly on floats whose value is an integer in range (documented: fails if too large or has a decimal part), and then denotes precisely that value.", "quantifier": "all 2^64 (2^32) float bit patterns", "why_tests_cant": "Exhaustive testing of 2^64 patterns is impossible; failures sit at negative fractions and range ends.", "anchors": ["crates/sourisdb/src/types/integer.rs: TryFrom<f64> for Integer, TryFrom<f32> for Integer"]}
{"id": "C11", "title": "Integer to JSON keeps the number", "statement": "For every Integer i built from a native integer, to_json returns None iff i is outside i64::MIN..=u64::MAX, and otherwise from_json of the result is an Integer denoting (and comparing ==) i.", "quantifier": "all native integers", "why_tests_cant": "Boundary at -2^63-1..-2^64 is far from sampled values.", "anchors": ["crates/sourisdb/src/types/integer.rs: Integer::to_json, Integer::from_json"]}
{"id": "C12", "title": "Cursor never leaves its slice", "statement": "After any sequence of cursor operations pos stays in 0..=len; read(n) returns exactly the next n items and advances by n, or returns None and leaves the position alone; offsets near usize::MAX never wrap.", "quantifier": "all slices, all operation sequences, all usize offsets", "why_tests_cant": "Unbounded operation sequences and usize offsets.", "anchors": ["crates/sourisdb/src/utilities/cursor.rs: Cursor"]}
{"id": "C13", "title": "Cursor Seek follows the std::io::Seek contract", "statement": "seek(SeekFrom::Start(n)) positions the cursor n items from the start, End(-n) n items before the end, Current(d) moves by d, and the returned number is the new position; otherwise an error and no move.", "quantifier": "all cursors and all offsets", "why_tests_cant": "Contract over all positions and offsets.", "anchors": ["crates/sourisdb/src/utilities/cursor.rs: impl Seek for Cursor"]}
{"id": "C14", "title": "Bits behaves as a sequence of booleans", "statement": "Under every sequence of push, push_many, pop, clear and collection from iterators, Bits behaves as a growable list of bool: len, indexing, pop results, iteration and Display agree with that list.", "quantifier": "all operation sequences of any length", "why_tests_cant": "Unbounded histories; errors occur at byte boundaries after pops.", "anchors": ["crates/sourisdb/src/utilities/bits.rs: Bits"]}
{"id": "C15", "title": "Bits byte format round-trips", "statement": "For every Bits value built through the API, Bits::deser of its ser() bytes followed by any suffix consumes exactly those bytes and yields the same bit sequence.", "quantifier": "all bit sequences of any length, any suffix", "why_tests_cant": "The failing sizes exceed 2^24 bits.", "anchors": ["crates/sourisdb/src/utilities/bits.rs: Bits::ser, Bits::deser"]}
{"id": "C16", "title": "Bits equality and hash are by contents", "statement": "Two Bits compare == iff they have the same bit sequence (as read by indexing or by iteration), and equal Bits feed identical data to the hasher - including Bits obtained by deserialising untrusted bytes.", "quantifier": "all pairs of Bits values, including deserialised ones", "why_tests_cant": "Depends on padding bits that honest serialisers never set.", "anchors": ["crates/sourisdb/src/utilities/bits.rs: PartialEq, Hash, get_proper_bytes, pop, Index"]}
{"id": "C17", "title": "Huffman coding is lossless", "statement": "For every non-empty data sequence, whatever order the hash maps iterate in, Huffman::new(data) succeeds and decode(encode(xs)) = xs for every xs over the symbols of data.", "quantifier": "all data sequences, all messages, all hash iteration orders", "why_tests_cant": "Iteration order is randomised per process and data is unbounded.", "anchors": ["crates/sourisdb/src/utilities/huffman.rs: Huffman::new, encode, decode, data_with_frequencies_to_node_tree, MinHeap"]}
{"id": "C18", "title": "Huffman codes are prefix-free and cover exactly the alphabet", "statement": "encode succeeds iff every symbol of the message occurred in the data; distinct symbols have codes neither of which is a prefix of the other.", "quantifier": "all data sequences, all messages, all hash orders", "why_tests_cant": "Unbounded alphabets and orders.", "anchors": ["crates/sourisdb/src/utilities/huffman.rs: add_node_to_table, encode"]}
{"id": "C19", "title": "Huffman codes are optimal", "statement": "The total encoded length of the data under Huffman::new(data) is no larger than under any other binary code tree over the same symbols, whatever the hash iteration order.", "quantifier": "all data sequences, all competing code trees, all hash orders", "why_tests_cant": "Optimality quantifies over every other code.", "anchors": ["crates/sourisdb/src/utilities/huffman.rs: data_with_frequencies_to_node_tree, MinHeap::next"]}
{"id": "C20", "title": "Huffman trees round-trip through bytes", "statement": "For u8 and for char trees, deser of ser() bytes followed by any suffix consumes exactly those bytes and yields a coder that encodes and decodes identically.", "quantifier": "all trees, all suffixes", "why_tests_cant": "Unbounded trees; multi-byte code points.", "anchors": ["crates/sourisdb/src/utilities/huffman.rs: Node<u8>::ser/deser, Node<char>::ser/deser, Huffman::ser/deser"]}
{"id": "C21", "title": "Huffman decode accepts exactly the encodings", "statement": "decode never panics; it returns Ok(xs) iff the bits are exactly encode(xs), and an error otherwise.", "quantifier": "all trees obtainable from new or deser, all bit sequences", "why_tests_cant": "All bit sequences, including adversarial ones.", "anchors": ["crates/sourisdb/src/utilities/huffman.rs: Huffman::decode"]}
{"id": "C22", "title": "Run-length compression is lossless", "statement": "un_rle of rle(b) followed by any suffix returns b and consumes exactly the compressed bytes.", "quantifier": "all byte strings, all suffixes", "why_tests_cant": "Run lengths across the 255 boundary in unbounded strings.", "anchors": ["crates/sourisdb/src/types/binary/rle.rs: rle, un_rle"]}
{"id": "C23", "title": "LZ framing is lossless", "statement": "un_lz of lz(b) followed by any suffix returns b and consumes exactly the compressed bytes, provided lz4_flex's decompress inverts its compress.", "quantifier": "all byte strings, all suffixes", "why_tests_cant": "Unbounded data.", "anchors": ["crates/sourisdb/src/types/binary/lz.rs: lz, un_lz"]}
{"id": "C24", "title": "Huffman binary compression is lossless", "statement": "un_huffman of huffman(b) followed by any suffix returns b and consumes exactly the compressed bytes, whatever the hash order.", "quantifier": "all byte strings, all suffixes, all hash orders", "why_tests_cant": "Failing inputs are over two megabytes.", "anchors": ["crates/sourisdb/src/types/binary/huffman.rs: huffman, un_huffman"]}
{"id": "C25", "title": "BinaryData round-trips and never expands beyond plain storage", "statement": "For every byte string, BinaryData::ser picks an encoding no longer than length-prefixed plain storage (and no longer than any of the four candidates), and deser with the reported compression returns the same bytes and consumes exactly them.", "quantifier": "all byte strings, all hash orders, any lossless lz4", "why_tests_cant": "Which codec wins depends on the data.", "anchors": ["crates/sourisdb/src/types/binary.rs: BinaryData::ser, BinaryData::deser"]}
{"id": "C26", "title": "Values round-trip through bytes", "statement": "For every Value v and optional Huffman coder, Value::deser(Value::ser(v) ++ suffix) returns a value equal to v and consumes exactly the bytes of v.", "quantifier": "all values of any depth, any suffix, any coder able to encode v's strings or None", "why_tests_cant": "Unbounded recursive structure.", "anchors": ["crates/sourisdb/src/values.rs: Value::ser, Value::deser"]}
{"id": "C27", "title": "Deserialisation always terminates", "statement": "Value::deser terminates on every byte string, after a number of loop iterations linear in the input length.", "quantifier": "all byte strings and coders", "why_tests_cant": "Non-termination cannot be observed by tests.", "anchors": ["crates/sourisdb/src/values.rs: Value::deser"]}
{"id": "C28", "title": "Deserialising untrusted bytes never panics", "statement": "Value::deser and Store::deser return Ok or Err on every byte string; they never panic.", "quantifier": "all byte strings", "why_tests_cant": "Adversarial inputs are not sampled.", "anchors": ["crates/sourisdb/src/values.rs: Value::deser", "crates/sourisdb/src/store.rs: Store::deser", "crates/sourisdb/src/utilities/huffman.rs", "crates/sourisdb/src/utilities/bits.rs"]}
{"id": "C29", "title": "Value equality is an equivalence and hash agrees with it", "statement": "Value implements Eq and Hash: == is reflexive, symmetric and transitive, and equal values feed identical data to the hasher.", "quantifier": "all values (pairs, triples), all map iteration orders", "why_tests_cant": "Quantifies over all pairs and over hash iteration orders.", "anchors": ["crates/sourisdb/src/values.rs: PartialEq for Value, Hash for Value", "crates/sourisdb/src/types/imaginary.rs: Hash"]}
{"id": "C30", "title": "Typed access is exact", "statement": "as_x/to_x/is_x and TryFrom<Value> succeed exactly on their own variant and return its contents, and otherwise report the found and expected types; native-integer extraction from a Value built from that type returns the original number.", "quantifier": "all values and all 16 variants", "why_tests_cant": "All values.", "anchors": ["crates/sourisdb/src/values.rs: as_ty!, from_integer!"]}
{"id": "C31", "title": "Value to JSON and back preserves the value", "statement": "With add_souris_types, for every Value that converts to JSON, convert_from_json(convert_to_json(v)) is a value equal to v up to the documented type widening (char to string, f32 to f64, JSON to its contents).", "quantifier": "all values of any depth", "why_tests_cant": "Unbounded structure; collisions with the souris_type marker key.", "anchors": ["crates/sourisdb/src/values.rs: convert_to_json, convert_from_json"]}
{"id": "C32", "title": "Wire tag tables are bijections", "statement": "ValueTy, SignedState and BinaryCompression tags convert to distinct u8 codes, convert back to the same tag, and every other u8 is rejected; the tag and its flag bits never collide within the one type byte written by Value::ser.", "quantifier": "all tags and all 256 byte values, all values", "why_tests_cant": "Full byte range and every value's header byte.", "anchors": ["crates/sourisdb/src/values.rs: From<ValueTy> for u8, TryFrom<u8> for ValueTy", "crates/sourisdb/src/types/integer.rs: SignedState", "crates/sourisdb/src/types/binary.rs: BinaryCompression"]}
{"id": "C33", "title": "Stores round-trip through bytes", "statement": "For every Store s, Store::deser(&s.ser()) returns a store equal to s.", "quantifier": "all stores, all hash orders, any lossless lz4/JSON printer", "why_tests_cant": "Unbounded maps of recursive values.", "anchors": ["crates/sourisdb/src/store.rs: Store::ser, Store::deser"]}
{"id": "C34", "title": "The Store magic is written and required", "statement": "Store::ser always starts with SOURISDB and a valid compression byte; Store::deser returns an error for every input that lacks the magic, is shorter than nine bytes, or carries an unknown compression code.", "quantifier": "all stores and all byte strings", "why_tests_cant": "All byte strings.", "anchors": ["crates/sourisdb/src/store.rs: Store::ser, Store::deser"]}
{"id": "C35", "title": "Store Huffman coder covers all text", "statement": "In Store::ser the coder built from the store's text can encode every map key, string, JSON text and timezone name anywhere in the store, so every string is written in compressed form whenever the store contains any text.", "quantifier": "all stores of any depth, all hash orders", "why_tests_cant": "Unbounded nesting.", "anchors": ["crates/sourisdb/src/store.rs: Store::ser (all_text)", "crates/sourisdb/src/values.rs: Value::ser (String)"]}
{"id": "C36", "title": "Store JSON wrapping is reversible", "statement": "Store::from_json of a non-object value v followed by to_json returns v; for every store s, to_json followed by from_json gives back the same keys.", "quantifier": "all JSON values and all stores", "why_tests_cant": "Depends on the special key JSON.", "anchors": ["crates/sourisdb/src/store.rs: Store::to_json, Store::from_json"]}
{"id": "C37", "title": "The daemon is a map of maps (sequentially)", "statement": "For every sequence of API requests handled one after another, every response (including cached get_db) and every subsequent read equals that of a plain map from database name to key-value map.", "quantifier": "all request sequences of any length, all cache eviction choices", "why_tests_cant": "Unbounded histories with caching and eviction.", "anchors": ["crates/sourisd/src/v1_routes/state.rs: SourisState"]}
{"id": "C38", "title": "Acknowledged writes are visible to later whole-database reads under concurrency", "statement": "Under every interleaving of concurrent requests, a get_db that starts after a write to that database has been acknowledged returns contents including that write (or a later state).", "quantifier": "all interleavings of any number of concurrent requests", "why_tests_cant": "Schedules cannot be enumerated by tests.", "anchors": ["crates/sourisd/src/v1_routes/state.rs: get_db, add_key_value_pair, db_cache"]}
{"id": "C39", "title": "Key reads are linearizable under concurrency", "statement": "Under every interleaving, each add_kv, rm_kv, get_value, add_db, add_db_with_content, clear_db, rm_db and get_all_db_names response is the one given by executing the operations atomically in the order they obtained the lock.", "quantifier": "all interleavings of any number of concurrent requests", "why_tests_cant": "Schedules cannot be enumerated by tests.", "anchors": ["crates/sourisd/src/v1_routes/state.rs: SourisState"]}
{"id": "C40", "title": "get_db never invents data", "statement": "Under every interleaving, bytes returned by get_db are the serialisation of a contents that database had at some earlier or current moment.", "quantifier": "all interleavings", "why_tests_cant": "Schedules cannot be enumerated by tests.", "anchors": ["crates/sourisd/src/v1_routes/state.rs: get_db"]}
{"id": "C41", "title": "add_kv result codes tell the truth", "statement": "The CreationResult of add_kv states exactly which of the five situations held, the key is (over)written exactly in the three writing cases, and nothing changes in the other two.", "quantifier": "all states, names, keys, values and flag combinations", "why_tests_cant": "All states.", "anchors": ["crates/sourisd/src/v1_routes/state.rs: add_key_value_pair", "crates/sourisdb/src/client.rs: CreationResult"]}
{"id": "C42", "title": "Creation status codes are right", "statement": "add_db and add_db_with_content answer 201 CREATED exactly when the database did not exist before and 200 OK when it did, so the clients' returned bool is true iff a new database was created.", "quantifier": "all states and requests", "why_tests_cant": "All states.", "anchors": ["crates/sourisd/src/v1_routes/state.rs: new_db, new_db_with_contents", "crates/sourisdb/src/client/sync_client.rs", "crates/sourisdb/src/client/async_client.rs"]}
{"id": "C43", "title": "Reserved and non-ASCII names are never created", "statement": "In every reachable daemon state no database is called meta or has a non-ASCII name.", "quantifier": "all request histories", "why_tests_cant": "Unbounded histories over three creating routes.", "anchors": ["crates/sourisd/src/v1_routes/state.rs: new_db, new_db_with_contents, add_key_value_pair"]}
{"id": "C44", "title": "Operations are isolated", "statement": "A request naming database d and key k leaves every other database, and for key operations every other key of d, unchanged; failed requests change nothing.", "quantifier": "all states and requests", "why_tests_cant": "All states and unnamed keys.", "anchors": ["crates/sourisd/src/v1_routes/state.rs: SourisState"]}
{"id": "C45", "title": "Save then restart restores the databases", "statement": "After save() completes without error and the daemon is restarted on the same directory, it starts and serves exactly the databases it had.", "quantifier": "all daemon states, all directory contents beforehand", "why_tests_cant": "Unbounded states; needs the file-level view.", "anchors": ["crates/sourisd/src/v1_routes/state.rs: SourisState::save, SourisState::new, get_internal_stores", "crates/sourisdb/src/store.rs"]}
{"id": "C46", "title": "A crash during save loses nothing already saved", "statement": "If the process stops at any point during save(), every database that was on disk before the save is still readable (old or new contents) afterwards.", "quantifier": "all crash points within the write sequence, all states", "why_tests_cant": "Crash points cannot be sampled exhaustively.", "anchors": ["crates/sourisd/src/v1_routes/state.rs: save, write_to_file"]}
{"id": "C47", "title": "A removed database stays removed", "statement": "After rm_db has been acknowledged, no crash and restart makes that database exist again.", "quantifier": "all histories and crash points", "why_tests_cant": "Crash points between rm_db and the next save.", "anchors": ["crates/sourisd/src/v1_routes/state.rs: remove_db, save, get_internal_stores"]}
{"id": "C48", "title": "Save writes what is in memory", "statement": "After an error-free save, each listed database's file holds the serialisation of its in-memory contents and meta lists exactly the databases whose file was written.", "quantifier": "all states, all sets of failing file writes", "why_tests_cant": "All states and I/O failure patterns.", "anchors": ["crates/sourisd/src/v1_routes/state.rs: SourisState::save"]}
{"id": "C49", "title": "Database files stay inside the base directory", "statement": "For every request, every file the daemon creates or deletes for a database lies directly in base_location.", "quantifier": "all database names", "why_tests_cant": "All strings as names.", "anchors": ["crates/sourisd/src/v1_routes/state.rs: save, remove_db (base_location.join)"]}
{"id": "C50", "title": "Errors map to the documented HTTP status", "statement": "DatabaseNotFound is answered 410, KeyNotFound/InvalidDatabaseName/(de)serialisation errors 400, I/O errors 500; an operation answers an error status iff it failed.", "quantifier": "all states and requests", "why_tests_cant": "All states.", "anchors": ["crates/sourisd/src/error.rs: IntoResponse for SourisError", "crates/sourisd/src/v1_routes/db.rs", "crates/sourisd/src/v1_routes/value.rs"]}
{"id": "C51", "title": "Graceful shutdown loses no acknowledged write", "statement": "When the daemon is stopped by ctrl-c or SIGTERM and exits normally, every write acknowledged before exit is on disk.", "quantifier": "all schedules of requests around the shutdown signal", "why_tests_cant": "Schedules around shutdown.", "anchors": ["crates/sourisd/src/main.rs: shutdown_signal, main"]}
{"id": "C52", "title": "A value written by the client is the value read back", "statement": "After add_entry_to_db(db, key, v) reports success, get_value for that key returns a value equal to v until the key is next written or removed.", "quantifier": "all values, all intervening requests on other keys", "why_tests_cant": "Unbounded values and histories.", "anchors": ["crates/sourisdb/src/client/sync_client.rs: add_entry_to_db", "crates/sourisdb/src/axum.rs: FromRequest for Value, IntoResponse for Value", "crates/sourisd/src/v1_routes/value.rs"]}
{"id": "C53", "title": "Client remove and fetch report presence", "statement": "The async client's remove_db returns true iff the database existed, get_store returns None iff the database does not exist and Some(contents) otherwise; remove_entry_from_db succeeds whether or not the key exists (as documented).", "quantifier": "all daemon states and names", "why_tests_cant": "All states.", "anchors": ["crates/sourisdb/src/client/async_client.rs: remove_db, get_store, remove_entry_from_db"]}
{"id": "C54", "title": "Imaginary numbers round-trip", "statement": "Imaginary::deser of ser() bytes and magic bits followed by any suffix returns the same form with the same coefficients (bit-exact for polar form), and unknown magic bits are rejected.", "quantifier": "all Imaginary values (2^128 pairs / all f64 pairs), all suffixes", "why_tests_cant": "Value space.", "anchors": ["crates/sourisdb/src/types/imaginary.rs: Imaginary::ser, Imaginary::deser"]}
{"id": "C55", "title": "Concurrent requests cannot deadlock", "statement": "Under every interleaving of concurrent requests, as long as some request has not been answered, some request can take a step, and every request is answered after a bounded number of its own steps.", "quantifier": "all interleavings of any number of concurrent requests, all cache evictions", "why_tests_cant": "Deadlocks appear only in particular interleavings, of which there are infinitely many.", "anchors": ["crates/sourisd/src/v1_routes/state.rs: SourisState (dbs lock, cache)"]}
{"id": "C56", "title": "create_new_db and get_all_dbs report what the daemon holds", "statement": "create_new_db returns true iff the database did not exist before, fails with an HTTP error iff the name is not allowed, and afterwards the database exists; get_all_dbs returns each database once; add_db_with_contents stores the given contents; none of them panics.", "quantifier": "all daemon states, names, flags and stores", "why_tests_cant": "All states.", "anchors": ["crates/sourisdb/src/client/async_client.rs: create_new_db, get_all_dbs, add_db_with_contents", "crates/sourisdb/src/client/sync_client.rs"]}
{"id": "C57", "title": "The two clients are interchangeable", "statement": "For every daemon state each method of the sync client has the same effect on the daemon and reports the same outcome as the async client's method of that name.", "quantifier": "all daemon states and arguments", "why_tests_cant": "All states.", "anchors": ["crates/sourisdb/src/client.rs: module documentation", "crates/sourisdb/src/client/async_client.rs", "crates/sourisdb/src/client/sync_client.rs"]}
{"id": "C58", "title": "Whatever was read can be stored", "statement": "Any value that Value::deser returns, whatever the bytes it was given, can be serialised again, and deserialising that returns a value of the same contents with the same bytes; so a daemon that accepted a value can always return it.", "quantifier": "all byte strings (including ones no serialiser produces) that deserialise", "why_tests_cant": "Adversarial encodings are unbounded; values not produced by the public constructors appear only there.", "anchors": ["crates/sourisdb/src/values.rs: Value::deser, Value::ser", "crates/sourisdb/src/axum.rs: FromRequest for Value, IntoResponse for Value"]}
{"id": "C59", "title": "What the daemon serves was sent to it", "statement": "After any history starting without databases, every value served for a key of a database is the value encoded by the body of an earlier request that set that key of that database.", "quantifier": "all request histories and cache evictions", "why_tests_cant": "Unbounded histories.", "anchors": ["crates/sourisd/src/v1_routes/value.rs: add_kv, get_value", "crates/sourisd/src/v1_routes/state.rs"]}
{"id": "C60", "title": "Converting an Integer to a float rounds correctly", "statement": "f64::from(i) and f32::from(i) are the floats nearest to the number i holds, ties to even, infinite only if the number is too large for the format; integers up to 2^53 (2^24) are exact, and then converting back returns the same number; no conversion panics.", "quantifier": "all Integers of all magnitudes", "why_tests_cant": "2^129 inputs; rounding errors appear only on ties and near powers of two.", "anchors": ["crates/sourisdb/src/types/integer.rs: From<Integer> for f64, From<Integer> for f32"]}
{"id": "C61", "title": "An Integer survives serde", "statement": "Serialising an Integer with serde and deserialising it gives an equal Integer, whichever integer width the format hands back; with serde_json's text and value tree, what is written is the decimal number, and what is read is the number in the text; otherwise there is an error, never another number.", "quantifier": "all Integers, all texts, all formats", "why_tests_cant": "2^129 inputs and all texts; the crate's own test accepts any 'invalid type' error as success.", "anchors": ["crates/sourisdb/src/types/integer.rs: Serialize for Integer, Deserialize for Integer"]}
{"id": "C62", "title": "Any serde type survives a store", "statement": "For every type whose serde_json form is faithful, Store::from_bytes of Store::to_bytes of a value returns that value; errors are reported, not swallowed.", "quantifier": "all types, all values", "why_tests_cant": "All types and values.", "anchors": ["crates/sourisdb/src/store.rs: Store::to_bytes, Store::from_bytes"]}
{"id": "C63", "title": "The polar form denotes the same number", "statement": "to_polar_form and polar_from_cartesian return polar coordinates of the given point: the argument lies within rounding of an argument in [-pi, pi], the modulus within rounding of the distance from the origin, for every point in every quadrant and on the axes; to_cartesian_form returns the coefficients if they are whole numbers, and otherwise returns the number unchanged with an error; a number already in the wanted form is unchanged.", "quantifier": "all pairs of finite floats, all Integer coefficients, all libms of a given accuracy", "why_tests_cant": "2^128 points; sign and quadrant errors hide on axes, at signed zeros and at overflow of the quotient.", "anchors": ["crates/sourisdb/src/types/imaginary.rs: Imaginary::to_polar_form, to_cartesian_form, polar_from_cartesian"]}
{"id": "C64", "title": "The preset English coder works on the texts it is for", "statement": "Huffman::new_with_english_frequencies never panics; its coder encodes exactly the texts over its 95 characters (printable ASCII without # % backslash backquote | }, and tab, newline, delete and three control characters), decodes what it encoded, reports UnableToCode for any other text, never panics on any bits, and is optimal for the frequencies it is made from.", "quantifier": "all texts, all bit sequences, all hash orders", "why_tests_cant": "The tree depends on the hash order of each run; texts are unbounded.", "anchors": ["crates/sourisdb/src/utilities/huffman.rs: Huffman::new_with_english_frequencies"]}
{"id": "C65", "title": "What is typed into mouse is the value that is entered", "statement": "When mouse asks for a value, the value it goes on with is the one the user's answers spell: it has the type picked from the menu, text that does not parse and invalid dates and times are asked for again, arrays hold the items in the order typed, of a key typed twice the last value counts; and the prompts take exactly the answers that spell the value.", "quantifier": "all sequences of answers, values of any depth and size", "why_tests_cant": "Dialogs recurse and repeat without bound; each type has its own prompts.", "anchors": ["crates/mouse/src/value_utils.rs: get_value_from_stdin"]}
{"id": "C66", "title": "Every value can be typed into mouse", "statement": "For every value of the database there are answers to mouse's prompts that enter it.", "quantifier": "all values", "why_tests_cant": "An existence claim about all values.", "anchors": ["crates/mouse/src/value_utils.rs: get_value_from_stdin"]}
{"id": "C67", "title": "mouse changes nothing without the user's agreement", "statement": "Whatever the user answers, whatever other clients do, and however the run ends, mouse sends a request that changes or deletes data only after the user answered yes to a question about that; creating a database that does not exist needs no question; viewing and exporting change nothing.", "quantifier": "all commands, sequences of answers, daemon states and interferences of other clients", "why_tests_cant": "Answers, states and interleavings are unbounded; the program is interactive and has no tests.", "anchors": ["crates/mouse/src/main.rs: fun_main, pick_db_name, pick_db"]}
{"id": "C68", "title": "mouse reports what it did", "statement": "When a command of mouse ends well, the message it prints last describes what became of the database it named: created or cleared, the entry that was typed added, overwritten or inserted, removed; or it was cancelled and nothing changed. When a command ends with an error, nothing has changed. Every command can end well. A user who agrees to overwrite a database gets a database without the old entries.", "quantifier": "all commands, sequences of answers, daemon states and interferences of other clients", "why_tests_cant": "End to end through dialogs, client, daemon and (de)serialisation of arbitrary values.", "anchors": ["crates/mouse/src/main.rs: fun_main, pick_db_name, pick_db"]}
{"id": "C69", "title": "A run of mouse ends", "statement": "For every finite sequence of answers, after which the terminal is closed, every command of mouse comes to an end, and it does not panic.", "quantifier": "all commands, sequences of answers, files and daemon states", "why_tests_cant": "Termination over all inputs; the dialogs loop until they are satisfied.", "anchors": ["crates/mouse/src/main.rs: fun_main, pick_db_name", "crates/mouse/src/value_utils.rs: get_value_from_stdin"]}
{"id": "C70", "title": "mouse works on the database the user chose", "statement": "The database a command of mouse works on is the one the user's answers choose: the one picked from the list of existing ones, the only one if there is just one, or a new name, where reserved names and names the user does not want to overwrite are asked for again. Exactly the existing databases and, for commands that may create one, every allowed name can be chosen. Whoever chooses, types and confirms gets what they asked for.", "quantifier": "all lists of databases, sequences of answers, names and values", "why_tests_cant": "The dialog loops; lists, names and retries are unbounded.", "anchors": ["crates/mouse/src/main.rs: fun_main, pick_db_name"]}
{"id": "C71", "title": "Export and import of JSON files by mouse", "statement": "The only file mouse ever writes is the one named for an export. Exporting leaves the daemon alone and writes the JSON of the database exactly if there is one and the file can be opened, and says so otherwise. Importing what was exported with types gives the same keys and values. A file that is not UTF-8 or not JSON is refused without changing anything.", "quantifier": "all databases, paths, file contents and runs", "why_tests_cant": "Databases and files are arbitrary; the claim about files covers every run of every command.", "anchors": ["crates/mouse/src/main.rs: fun_main (ExportToJSON, ImportFromJSON)"]}
{"id": "C72", "title": "Requests and replies survive HTTP", "statement": "Whatever characters the names and keys contain, a request sent by a client reaches the daemon with exactly these names, keys, flags and bytes, and the client gets exactly the daemon's result; a query string written by any other program in any correct encoding is understood the same way. So what was written with a client is what anyone who asks for it over HTTP gets.", "quantifier": "all names, keys, flags, values, daemon states and correct query strings", "why_tests_cant": "Encodings of arbitrary Unicode text; parameter names and paths are repeated by hand on both sides.", "anchors": ["crates/sourisdb/src/client/sync_client.rs: SyncClient", "crates/sourisdb/src/client/async_client.rs: AsyncClient", "crates/sourisd/src/main.rs: main", "crates/sourisd/src/v1_routes/db.rs: NewDB, DbByName", "crates/sourisd/src/v1_routes/value.rs: KeyAndDb, NewKeyArgs"]}
{"id": "C73", "title": "The daemon understands exactly the requests of its interface", "statement": "A request is carried out if and only if its path and method belong to the interface and each parameter of that route is given once, flags as true or false; the order of parameters and unknown parameters do not matter, and no request has two meanings. Every other request is refused with a status that says why (404, 405, 400, 414) and changes nothing.", "quantifier": "all HTTP requests: methods, paths, query strings and bodies; all daemon states", "why_tests_cant": "Requests come from anyone and are arbitrary byte strings.", "anchors": ["crates/sourisd/src/main.rs: main", "crates/sourisd/src/v1_routes/db.rs: add_db, add_db_with_content, clear_db, remove_db, get_db, get_all_dbs", "crates/sourisd/src/v1_routes/value.rs: add_kv, get_value, rm_key"]}
{"id": "C74", "title": "A save stores one moment, whatever requests run beside it", "statement": "A save that runs while requests are being answered writes the databases of one moment: there is an order of the requests that explains all replies up to the beginning of the save, and every file that the save writes is from the result of that order, each database once. A file stays as the save left it until the next save.", "quantifier": "all interleavings of any number of requests, cancellations, saves and deletions; all databases and disks", "why_tests_cant": "Interleavings of a background task with requests; a race between deleting a file and writing it shows once in many runs.", "anchors": ["crates/sourisd/src/v1_routes/state.rs: SourisState::save, remove_db", "crates/sourisd/src/main.rs: main, saver loop"]}
{"id": "C75", "title": "Requests and saves cannot block each other, and the daemon stops", "statement": "As long as a request is unanswered, some request or the save that holds the lock can go on; a save ends after as many steps as there are databases and two more; after the stop signal at most two saves begin and the process can always go on until it has exited.", "quantifier": "all interleavings of any number of requests, cancellations and saves", "why_tests_cant": "Deadlocks depend on the schedule; runs are unbounded.", "anchors": ["crates/sourisd/src/main.rs: main, saver loop, shutdown_signal", "crates/sourisd/src/v1_routes/state.rs: SourisState::save"]}
{"id": "C76", "title": "Reads of keys under concurrency", "statement": "Whoever reads a key after a write of it was acknowledged gets the value that was written, and whoever reads it after its removal was acknowledged does not find it, unless another operation on it ran in between or at the same time. A value that is read was there at the beginning or was sent for that key before the read was answered.", "quantifier": "all interleavings of any number of requests and cancellations; all values, keys and databases", "why_tests_cant": "Interleavings of unboundedly many requests.", "anchors": ["crates/sourisd/src/v1_routes/state.rs: SourisState::add_key_value_pair, get_value, rm_key"]}
{"id": "C77", "title": "A file determines the contents of its database", "statement": "Two databases with different contents are never saved as the same bytes, so whatever a file was written from can be got back from the file: there is a way to read files that recovers every database. The same holds for a value inside a message and for the whole directory after a save without failures.", "quantifier": "all databases and values, of all shapes and sizes below 2^40; all disks", "why_tests_cant": "Two different inputs that collide are found only by looking at all pairs; that the round trip fails for some stores does not tell whether the data are lost in the file or only by the reader.", "anchors": ["crates/sourisdb/src/store.rs: Store::ser", "crates/sourisdb/src/values.rs: Value::ser", "crates/sourisdb/src/utilities/huffman.rs: Huffman::encode", "crates/sourisd/src/v1_routes/state.rs: SourisState::save"]}
{"id": "C78", "title": "A printed value can be recognised", "statement": "The text that a value is printed as tells its type and its contents: values that print alike are alike, up to the signedness of integers.", "quantifier": "all values, nested to any depth, with any characters in strings", "why_tests_cant": "Collisions are pairs of values; strings may contain any mixture of quotes, brackets and escapes.", "anchors": ["crates/sourisdb/src/values.rs: Display for Value", "crates/sourisdb/src/types/imaginary.rs: Display for Imaginary", "crates/sourisdb/src/lib.rs: display_bytes_as_hex_array"]}
{"id": "C79", "title": "The size of a saved database", "statement": "Every database can be saved, and its file has at most 18 bytes, and 36 bytes for each value and key, 9 for each character of text and one for each byte of binary data; if all text is over an alphabet of 2^k characters, k bits a character and 6 bytes for each character of the alphabet are enough. After a save without failures the whole directory is bounded in this way.", "quantifier": "all databases of all shapes and sizes below 2^56; all hash orders; any behaviour of lz4", "why_tests_cant": "The bound covers every combination of compression choices and every code tree; the worst cases are not the obvious ones.", "anchors": ["crates/sourisdb/src/store.rs: Store::ser", "crates/sourisdb/src/values.rs: Value::ser", "crates/sourisdb/src/types/binary.rs: BinaryData::ser", "crates/sourisdb/src/utilities/huffman.rs: Huffman::new", "crates/sourisd/src/v1_routes/state.rs: SourisState::save"]}
{"id": "C80", "title": "What is stored is bounded by what was sent", "statement": "A value that is read from n bytes has at most 255 n characters, bytes, keys and nested values. Whatever requests a daemon is sent, its databases contain at most 2 for each request, 1 for each character of the names and keys, and 255 for each byte of the bodies.", "quantifier": "all byte strings; all sequences of requests and evictions", "why_tests_cant": "A single compact input that expands without bound is enough to exhaust the memory of the daemon; inputs are unbounded.", "anchors": ["crates/sourisdb/src/values.rs: Value::deser", "crates/sourisdb/src/types/binary.rs: BinaryData::deser", "crates/sourisdb/src/types/binary/huffman.rs: un_huffman", "crates/sourisdb/src/types/binary/rle.rs: un_rle", "crates/sourisd/src/v1_routes/value.rs: add_kv", "crates/sourisd/src/v1_routes/state.rs"]}
{"id": "C81", "title": "Databases do not see each other", "statement": "The reply to a request about a database, and what the database holds, depend on nothing but the requests about that database that came before, and their order: requests about other databases, reading the list of names and evictions from the cache make no difference, wherever they come in between.", "quantifier": "all histories of requests and evictions; all names, keys and bodies", "why_tests_cant": "It compares all pairs of histories; leaks between databases through a shared cache or a shared map show only in particular interleavings of names.", "anchors": ["crates/sourisd/src/v1_routes/state.rs: SourisState", "crates/sourisd/src/v1_routes/db.rs", "crates/sourisd/src/v1_routes/value.rs"]}
{"id": "C82", "title": "Retries are harmless", "statement": "A request that is sent twice in a row leaves the databases as if it had been sent once.", "quantifier": "all requests after all histories", "why_tests_cant": "Unbounded histories and all bodies.", "anchors": ["crates/sourisd/src/v1_routes/state.rs: SourisState", "crates/sourisd/src/v1_routes/db.rs", "crates/sourisd/src/v1_routes/value.rs"]}
{"id": "C83", "title": "JSON survives as text", "statement": "A JSON value printed by the library or the tools, compactly or indented, is read back as the same value; and the printed text is JSON that says exactly this value, also to another reader.", "quantifier": "all JSON values: strings of any characters, all 64-bit integers, all finite doubles, any nesting", "why_tests_cant": "Floats alone are 2^64 cases; strings and nesting are unbounded.", "anchors": ["crates/sourisdb/src/values.rs: Value::ser, parse JSON", "crates/sourisdb/src/store.rs: Store::from_json_bytes, to_json", "crates/mouse/src/main.rs: ExportToJSON, ImportFromJSON"]}
{"id": "C84", "title": "JSON texts are read for what they say", "statement": "Exactly the texts that are JSON are accepted where JSON is read from text, and they are read as what they say: strings with their escapes, integers of 64 bits exactly, other numbers as the nearest double, of repeated keys the last.", "quantifier": "all texts", "why_tests_cant": "The language of JSON is infinite; wrong rounding shows for few of the many decimal texts.", "anchors": ["crates/sourisdb/src/store.rs: Store::from_json_bytes", "crates/sourisdb/src/values.rs: Value::deser", "crates/mouse/src/value_utils.rs: input JSON"]}
{"id": "C85", "title": "The JSON form of values", "statement": "The JSON made of a value is the documented one: plain JSON for text, truth values, null, numbers, arrays and maps, and an object with exactly the documented members for every other type, with the type's number if types are asked for. There is none exactly if the value contains a number that JSON cannot express.", "quantifier": "all values, nested to any depth", "why_tests_cant": "Other programs read the exported JSON, so every member and every number matters; values are unbounded.", "anchors": ["crates/sourisdb/src/values.rs: Value::convert_to_json", "crates/sourisdb/src/store.rs: Store::to_json", "crates/sourisdb/src/types/integer.rs: Integer::to_json"]}
{"id": "C86", "title": "Timestamps as text", "statement": "The texts accepted for a timestamp are the dates and times of the format that is asked for, and each is read as the moment it says. Timestamps are printed as their date and time, different ones differently, and what is printed can be read again.", "quantifier": "all texts; all dates from year -262143 to 262142 and times including leap seconds", "why_tests_cant": "There are more than 10^20 timestamps and infinitely many texts; the calendar, signs of years and fractions of seconds give many rare cases.", "anchors": ["crates/sourisdb/src/values.rs: Display for Value, Value::convert_to_json, Value::convert_from_json", "crates/mouse/src/value_utils.rs: input timestamps"]}
{"id": "C87", "title": "Floats and addresses as text", "statement": "Floats are printed as the shortest decimal that is rounded to them, and IP addresses in the recommended form (RFC 5952). Exactly the decimal numbers and the words for infinity and not-a-number are accepted where a float is typed, and read as the nearest one; exactly the forms of RFC 4291 where an address is typed. What is printed is read back as the same.", "quantifier": "all texts; all floats of 32 and 64 bits; all addresses", "why_tests_cant": "There are 2^64 floats, 2^128 addresses and infinitely many texts; halfway cases and runs of zeros are rare.", "anchors": ["crates/sourisdb/src/values.rs: Display for Value", "crates/sourisdb/src/types/imaginary.rs: Display for Imaginary", "crates/mouse/src/value_utils.rs: input floats and addresses"]}
{"id": "C88", "title": "How values are printed", "statement": "A value is printed as documented for its type: text and characters as quoted literals with escapes, bytes as 0x and capital digits, numbers in decimal, complex numbers as a+bi or in polar form, JSON as JSON, addresses and timestamps in their usual forms, arrays as bracketed lists and maps as a table of keys and printed values.", "quantifier": "all values, nested to any depth", "why_tests_cant": "Values are unbounded and nest; the escape of a rare character or the sign of an imaginary part is easily missed.", "anchors": ["crates/sourisdb/src/values.rs: Display for Value", "crates/sourisdb/src/types/imaginary.rs: Display for Imaginary", "crates/sourisdb/src/types/integer.rs: Display for Integer"]}
{"id": "C89", "title": "LZ4 compression of binary data", "statement": "What binary data is compressed to is a valid LZ4 block that says this data, only slightly longer than the data when it cannot be compressed. Every LZ4 block, also one written by another program, is read as the data it says when the stated size suffices. Everything else is an error, never other data, and at most 255 bytes come out for each byte that went in.", "quantifier": "all data; all byte strings offered as compressed data; all stated sizes", "why_tests_cant": "Matches may lie anywhere, overlap themselves and be of any length; corrupt blocks are unlimited, and a wrong copy shows only for data with a particular repetition.", "anchors": ["crates/sourisdb/src/types/binary/lz.rs: lz, un_lz", "crates/sourisdb/src/types/binary.rs: BinaryData::ser, BinaryData::deser"]}
{"id": "C90", "title": "Nobody waits forever", "statement": "While a request or the saver waits for the lock, the lock is obtained only by those who asked for it before, each once and in order. If every task that can go on is run at some time, then every request is answered or its client goes away, saves keep being completed however many requests arrive, and after the stop signal the last save is made.", "quantifier": "all endless interleavings of any number of concurrent requests, cancellations, saves and the stop signal under a fair scheduler", "why_tests_cant": "Starvation shows only in endless schedules; no finite test can exhibit or exclude it.", "anchors": ["crates/sourisd/src/v1_routes/state.rs: SourisState", "crates/sourisd/src/main.rs: main, shutdown_signal"]}
{"id": "C91", "title": "What an error message says", "statement": "The message of an error tells which error it is, with all that it carries: two errors of the library, the client, the daemon or the command line with the same message are the same. So does the body of an answer to a refused request, which also tells a failed handler from a request that could not be read, and so does what the command line prints when it fails. The message of an error that wraps another ends with the message of the wrapped one.", "quantifier": "all errors of all types, nested to any depth, whatever texts other libraries contribute", "why_tests_cant": "Errors carry bytes, characters and texts and wrap each other, so there are infinitely many; two that read the same show only when both are compared.", "anchors": ["crates/sourisdb/src/types/integer.rs: Display for IntegerSerError", "crates/sourisdb/src/utilities/huffman.rs: Display for HuffmanSerError", "crates/sourisdb/src/types/binary.rs: Display for BinarySerError", "crates/sourisdb/src/values.rs: Display for ValueSerError", "crates/sourisdb/src/store.rs: Display for StoreSerError", "crates/sourisdb/src/client.rs: Display for ClientError", "crates/sourisdb/src/axum.rs: SourisRejection", "crates/sourisd/src/error.rs: SourisError", "crates/mouse/src/main.rs: Error, main"]}
{"id": "C92", "title": "Root causes", "statement": "Following the source of an error from one error to the next ends at the root cause: the innermost error that it wraps.", "quantifier": "all errors of all types, nested to any depth", "why_tests_cant": "Whether a link is missing shows only for the variant that misses it, and variants combine in nesting.", "anchors": ["crates/sourisdb/src/types/integer.rs: Error for IntegerSerError", "crates/sourisdb/src/values.rs: Error for ValueSerError", "crates/sourisdb/src/store.rs: Error for StoreSerError", "crates/sourisdb/src/client.rs: Error for ClientError", "crates/sourisd/src/error.rs: Error for SourisError", "crates/mouse/src/main.rs: Error for Error"]}
{"id": "C93", "title": "Nesting is limited", "statement": "However long the input, the library and the daemon accept values only up to a fixed depth of nesting, so that printing, comparing, copying or dropping what was accepted needs a bounded stack. What is read never has more parts, nor more levels, than it has bytes, and JSON inside it has at most 127 levels.", "quantifier": "all byte strings and request bodies of any length; all histories of requests", "why_tests_cant": "Only inputs nested beyond what a test tries reveal a missing limit, and how deep is too deep depends on the machine.", "anchors": ["crates/sourisdb/src/values.rs: Value::deser", "crates/sourisd/src/main.rs: main (DefaultBodyLimit)", "crates/sourisd/src/v1_routes/value.rs: add_kv"]}
{"id": "C94", "title": "The byte format", "statement": "Values and database files have one byte format that another program can implement from its description: the number of the type in the upper half of the first byte; numbers of up to 239 in one byte and others in as many bytes as announced, lowest first; a sign apart from the number; texts as UTF-8 behind their length or as paths in a tree; lists and maps behind the number of their elements; files as the letters SOURISDB, one byte for the form of the rest, and the rest. Whatever is written is in the format. Whatever is in the format is read as the value it is for, and whatever follows is left alone; nothing else is read. Bits without meaning have no influence.", "quantifier": "all values and databases of any size; all byte strings, wherever they stand; all hash orders and all choices of the compressor", "why_tests_cant": "A round trip in a test passes whatever the format is, as long as writer and reader agree; files of another version or another implementation do not, and which byte strings are accepted cannot be enumerated.", "anchors": ["crates/sourisdb/src/values.rs: Value::ser, Value::deser", "crates/sourisdb/src/store.rs: Store::ser", "crates/sourisdb/src/types/integer.rs: Integer::ser, Integer::deser", "crates/sourisdb/src/types/imaginary.rs: Imaginary::ser, Imaginary::deser", "crates/sourisdb/src/types/binary.rs: BinaryData::ser, BinaryData::deser", "crates/sourisdb/src/utilities/huffman.rs: Huffman::ser, reverse", "crates/sourisdb/src/utilities/bits.rs: Bits::ser, Bits::deser"]}
{"id": "C95", "title": "Clients believe only a successful answer", "statement": "Whatever server a client talks to and whatever it answers, a call sends at most one request, which says what was asked and does not depend on the server. The call returns normally, never by a panic. It succeeds only if the answer has a status that says success, and then returns what the answer says; any other status is reported as it is, and so is a body that makes no sense.", "quantifier": "all servers, with any answer to any request at any time; all names, keys, values and databases; both clients", "why_tests_cant": "The answers that a server, a proxy or another program on the port may give are unlimited; tests run against the daemon, which gives only a few of them.", "anchors": ["crates/sourisdb/src/client/async_client.rs: AsyncClient", "crates/sourisdb/src/client/sync_client.rs: SyncClient", "crates/sourisdb/src/client.rs: ClientError, CreationResult"]}
{"id": "C96", "title": "What is written does not depend on chance", "statement": "Writing a value or a database yields the same bytes whenever its contents are the same: in another process, after maps were filled in another order, whatever order hash maps happen to iterate in. So files can be compared, cached and backed up by their bytes, and their size is a function of their contents.", "quantifier": "For all values and databases, all orders in which the maps inside them and the hash maps used during writing iterate.", "why_tests_cant": "Rust's hash maps iterate in a random order, so a test sees one of many possible outputs, and the number of orders grows factorially with the number of entries.", "anchors": ["crates/sourisdb/src/values.rs: Value::ser", "crates/sourisdb/src/store.rs: Store::ser", "crates/sourisdb/src/types/binary.rs: BinaryData::ser", "crates/sourisdb/src/utilities/huffman.rs: Huffman::new"]}
{"id": "C97", "title": "The project's own tests hold for every input", "statement": "Each randomised test of the project passes for every input that its generator can produce, not only for the few hundred that a run draws: texts parse without a crash, numbers survive text, bytes and JSON, values survive their bytes, bit lists are equal exactly if they should be, coders and compressors are lossless. The tests with fixed inputs pass too.", "quantifier": "all inputs of the generators of the 31 randomised tests (all 32-bit and 128-bit integers, all texts, all floats, all byte strings of the given lengths and beyond), all hash orders", "why_tests_cant": "A run of a randomised test draws 256 inputs out of up to 2^128; an input that fails with a probability of 2^-24 or less is practically never drawn.", "anchors": ["crates/sourisdb/src/types/integer.rs: tests", "crates/sourisdb/src/values.rs: tests", "crates/sourisdb/src/utilities/bits.rs: tests", "crates/sourisdb/src/utilities/huffman.rs: tests", "crates/sourisdb/src/utilities/cursor.rs: tests", "crates/sourisdb/src/types/binary.rs: CASES, test_roundtrip", "crates/sourisdb/src/types/binary/rle.rs: tests", "crates/sourisdb/src/types/binary/lz.rs: tests", "crates/sourisdb/src/types/binary/huffman.rs: tests"]}
{"id": "C98", "title": "A complex number survives serde", "statement": "A complex number that is given to serde_json becomes an object with one member that names its form and holds its two parts, and from this object it is read back as an equal number. Other programs may write the object in another order or with further members; whatever else is given instead is refused.", "quantifier": "all complex numbers of both forms with parts of any integer type or any floats; all JSON values, whoever made them", "why_tests_cant": "The pairs of 128-bit integers and of floats cannot be enumerated, and the values that fail - zeros of a signed type, parts beyond 64 bits, infinities - are few among them or are never drawn by a test of typical numbers.", "anchors": ["crates/sourisdb/src/types/imaginary.rs: Imaginary (derived Serialize, Deserialize)", "crates/sourisdb/src/types/integer.rs: Integer::serialize, Integer::deserialize"]}
{"id": "C99", "title": "The debug text tells values apart", "statement": "The debug text of a value or of a database, on one line or indented over many, as the CLI prints it on request, tells which value it is: values with the same text have the same type, the same structure and the same contents, down to the signedness and stored bytes of integers and the last bit of floats (but not the bits of a not-a-number), whatever strings, keys and JSON inside them contain. Floats and timestamps in it can be typed in again and are the same.", "quantifier": "all values and databases of any size and depth; all strings, including those that contain quotes, brackets, line breaks and texts that look like debug texts; all floats", "why_tests_cant": "Whether two values are confused depends on strings and nestings that imitate the notation of others, of which there is no end; and each of 2^64 floats has its own text.", "anchors": ["crates/sourisdb/src/values.rs: Value (derived Debug)", "crates/sourisdb/src/types/integer.rs: Debug for Integer", "crates/sourisdb/src/types/binary.rs: Debug for BinaryData", "crates/sourisdb/src/types/imaginary.rs: Imaginary (derived Debug)", "crates/sourisdb/src/store.rs: Store (derived Debug)", "crates/mouse/src/main.rs: main (DebugViewAll)"]}
{"id": "C100", "title": "What the command line says", "statement": "When the command line ends without an error, the last line it prints tells in words what became of the database: created or cleared, entry added to a new or an existing database or put in place of another, database removed, or nothing because the user declined. Each line says one thing only: two lines with the same text are the same message and name the same key, database or path, whatever characters these contain.", "quantifier": "all runs of all commands, whatever the user answers, the daemon holds and other clients do in between; all keys, names and paths", "why_tests_cant": "A message that is true in the runs of a test may be wrong when other clients interfere, and two messages that read the same show only for particular names.", "anchors": ["crates/mouse/src/main.rs: fun_main, pick_db_name", "crates/sourisdb/src/client.rs: Display for CreationResult", "crates/sourisdb/src/types/integer.rs: Display for FloatToIntegerConversionError"]}
{"id": "C101", "title": "The settings decide where the daemon keeps its files", "statement": "The daemon keeps all of its files in the one directory that its settings name: the path in the environment variable BASE_LOCATION if it is set, which is created where it is missing; otherwise /etc/souris if it runs as superuser, and souris in the user's directory for data (XDG_DATA_HOME if absolute, else .local/share in the home directory) if not. If there is no such directory, if a file is in its way, if the list of databases cannot be read or if another daemon has the port, it does not start; it never uses another directory instead. Starting writes no files. A daemon that is started again with the same settings finds what was saved, whatever else happened to the disk.", "quantifier": "all values of the environment variables (missing, text, not Unicode), all users, working directories, paths (with dots, repeated and trailing slashes), disks and stored databases", "why_tests_cant": "the settings, paths and disks are unbounded, and tests run with one environment only", "anchors": ["crates/sourisd/src/v1_routes/state.rs: SourisState::new, running_with_superuser", "crates/sourisd/src/main.rs: main"]}
{"id": "C102", "title": "Which command a command line starts", "statement": "The command line mouse is started with decides what it does: it starts a command on a host exactly if the line consists of the host, the name of the command and exactly the arguments of this command, with the flag for types, where there is one, at most once and before or behind the file. Whatever stands behind -- is taken as it is. No line has two meanings; every command can be given for every database name, every non-empty file name and every host that is neither the name of a command nor begins with a dash. Everything else starts nothing: help and version are for those who ask, other lines are refused.", "quantifier": "all sequences of UTF-8 arguments of any length, in builds with and without debug assertions", "why_tests_cant": "Command lines are unbounded, and what is taken for a value, an option or a command depends on everything before it.", "anchors": ["crates/mouse/src/main.rs: Arguments, Commands, main"]}
{"id": "C103", "title": "What was read from JSON can be written and read again", "statement": "Whatever JSON was imported, the value it became can be exported as JSON, and that JSON can be imported: the value is the same as before, and from then on the exported JSON does not change. The same holds for whole stores.", "quantifier": "all values of serde_json, of any size and depth, and all values and stores they are read as", "why_tests_cant": "JSON is unbounded in size and depth, and marked objects, numbers and hash maps each take a path of their own in either direction.", "anchors": ["crates/sourisdb/src/values.rs: convert_to_json, convert_from_json", "crates/sourisdb/src/store.rs: to_json, from_json"]}
{"id": "C104", "title": "What the export without types keeps", "statement": "Exporting with or without type markers succeeds for the same values. The JSON is the same in both cases exactly if the value holds nothing of a type that JSON lacks: complex numbers, timestamps, timezones, binary data and addresses. Without markers exactly those values and stores come back that come back with markers and hold nothing of such a type.", "quantifier": "all values and stores, of any size and depth", "why_tests_cant": "What is lost depends on types at any depth, and an unmarked object may be taken for something else when it is read.", "anchors": ["crates/sourisdb/src/values.rs: convert_to_json, convert_from_json", "crates/sourisdb/src/types/binary.rs: to_json", "crates/sourisdb/src/store.rs: to_json, from_json"]}
{"id": "C105", "title": "What is exported as a JSON text can be imported", "statement": "If a store can be exported as JSON with type markers and that JSON be imported, then the text of the JSON, compact or indented, can be imported too, as the same store up to the documented widening of characters, single floats and JSON.", "quantifier": "all stores, of any size and depth, whose keys are distinct, and both layouts of the text", "why_tests_cant": "The printer and the reader of serde_json treat depth and digits differently, and stores are unbounded in both.", "anchors": ["crates/sourisdb/src/store.rs: to_json, from_json_bytes", "crates/sourisdb/src/values.rs: convert_to_json, convert_from_json"]}
{"id": "C106", "title": "The benchmarks measure what they are named after, whatever the example file", "statement": "The benchmarks of the crate work on a file smallexampledata.json that is not in the repository. For every such file and every number of rounds that the harness chooses, each benchmark runs to the end; the ones that decode (un-rle, un-lz, un-huff, decode huffman) get the file itself in every round, the ones that deserialise (coders, bits, databases) get in every round what was serialised.", "quantifier": "all example files, all numbers of rounds, all orders of the hash maps", "why_tests_cant": "Benchmarks are run on one file and their results are only timed, never compared; a benchmark that times an error looks fine.", "anchors": ["crates/sourisdb/benches/compression.rs:13", "crates/sourisdb/benches/utilities.rs:6", "crates/sourisdb/benches/database.rs:6"]}
{"id": "C107", "title": "A message that is cut off or has something added is noticed", "statement": "Reading the bytes of a value with their end missing, wherever the cut is, gives the error that there are not enough bytes: never a value, never a panic, never another error. A request to the daemon with such a body is answered with status 400 and changes nothing. The same error is given for the beginning of a database file. Bytes that stand behind a whole value or a whole file are noticed as well.", "quantifier": "all values and stores, of any size and depth, all places to cut, all bytes added, all states of the daemon", "why_tests_cant": "There is one place to cut per byte of every possible message, and the loop that reads nested values can be interrupted in each of its states.", "anchors": ["crates/sourisdb/src/values.rs:1141", "crates/sourisdb/src/axum.rs:62", "crates/sourisdb/src/utilities/cursor.rs:71", "crates/sourisd/src/v1_routes/value.rs:22", "crates/sourisdb/src/store.rs:104"]}
{"id": "C108", "title": "A client that goes away leaves nothing half done", "statement": "When a client breaks its connection before the answer, its request has been carried out entirely or not at all, whichever other requests run beside it; nobody waits for it any longer; and what the daemon answers to others afterwards fits the databases as they then are.", "quantifier": "all interleavings of any number of requests, any number of clients that go away, at any of the points where a request waits", "why_tests_cant": "The outcome depends on the moment at which the connection breaks, between any two of the steps of any number of requests.", "anchors": ["crates/sourisd/src/v1_routes/state.rs:62", "crates/sourisd/src/v1_routes/state.rs:77", "crates/sourisd/src/v1_routes/state.rs:137", "crates/sourisd/src/v1_routes/state.rs:173"]}
{"id": "C109", "title": "Of concurrent additions one is the first, of concurrent removals one removes", "statement": "Clients may use a key as a lock or an election: when two additions of the same key are both told that it was not there before, something that removes it was carried out in between; when two removals of it both succeed, something that stores it was; and when two creations of a database are both answered with 201, a removal of it was. If several clients add a key without overwriting and nothing else touches it, at most one is told that it was the first, everybody who reads the key reads the value of that one, and that value is what is there in the end; and if anyone is told that the key was found, there was a first one.", "quantifier": "all interleavings of any number of requests on any databases and keys, including clients that go away; all initial databases and values", "why_tests_cant": "Which of the clients is the first depends on the interleaving, and a window between looking and inserting shows only when another request falls into it.", "anchors": ["crates/sourisd/src/v1_routes/state.rs:168", "crates/sourisd/src/v1_routes/state.rs:222", "crates/sourisd/src/v1_routes/state.rs:53", "crates/sourisd/src/v1_routes/value.rs:23"]}
{"id": "C110", "title": "Whole-database reads do not go back in time", "statement": "The answers to get_db of one database, in the order in which they are given, show its contents at moments that never go back: who has seen a state of a database never gets an older one from a later get_db, and neither does anybody else. The answer that there is no such database counts as well: once it was given, the contents from before are not served again.", "quantifier": "all interleavings of any number of requests, with evictions from the cache and clients that go away at any point; all databases and contents", "why_tests_cant": "An older copy can only come back when it is put into the cache between particular steps of other requests.", "anchors": ["crates/sourisd/src/v1_routes/state.rs:150", "crates/sourisd/src/v1_routes/state.rs:164", "crates/sourisd/src/v1_routes/state.rs:127"]}
{"id": "C111", "title": "Without races the outcome does not depend on the timing", "statement": "Two requests are unrelated if both only read, if they are about different databases, if they are about different keys and create no database, or if one lists the names and the other neither creates nor removes a database. Clients that issue related requests only one after the other get the same results however their unrelated requests overlap: in any two runs with the same requests, in which related requests come in the same order, the databases at the end are the same, each request on values and each creation, clearing and removal of a database gets the same answer, and the lists of names have the same names. A get_db that is never under way beside a change of its database is answered with the contents at its call. If get_db, too, is ordered with the requests that are related to it, its answers show the same contents in both runs.", "quantifier": "any two interleavings of any number of requests from any number of clients, with evictions and any hash orders; all initial databases", "why_tests_cant": "It compares every pair of interleavings of arbitrarily many requests; a test sees a few schedules of a few requests.", "anchors": ["crates/sourisd/src/v1_routes/state.rs:41", "crates/sourisd/src/v1_routes/state.rs:53", "crates/sourisd/src/v1_routes/state.rs:150", "crates/sourisd/src/v1_routes/state.rs:168", "crates/sourisd/src/v1_routes/state.rs:206", "crates/sourisd/src/v1_routes/state.rs:222"]}
{"id": "C112", "title": "A change of a database is seen at once", "statement": "Uploading contents, clearing, emptying or removing a database changes many keys. When such a request is the only one that changes the database, every read of a key, and every get_db, shows the database entirely before or entirely after the change, never a mixture; and once any client has been answered from the contents after the change, no read that is called later, of whichever key or of the whole database, shows the contents before it.", "quantifier": "all interleavings of one change of a database, of any kind, with any number of reads of it and any requests on other databases, with evictions and clients that go away; all initial databases and contents", "why_tests_cant": "A half-done change shows only to a read that falls between two of its steps, and an older copy only after a particular order of steps.", "anchors": ["crates/sourisd/src/v1_routes/state.rs:83", "crates/sourisd/src/v1_routes/state.rs:111", "crates/sourisd/src/v1_routes/state.rs:127", "crates/sourisd/src/v1_routes/state.rs:150", "crates/sourisd/src/v1_routes/state.rs:206"]}
{"id": "C113", "title": "What appears in a database's file is what the database contained at a moment since", "statement": "Look at the file of a database at any moment while the server runs, and again later. Either it has not changed, or it has been deleted, or it holds exactly the contents that this database had in memory at some moment between the two looks: never contents older than the first look, never those of another database, and never a mixture of two moments. Only if a write of the file went wrong (the disk was full, or the process was killed during it) may it hold just the beginning of such contents. This is for databases whose names are one path component and not `meta`.", "quantifier": "for every interleaving of requests, cancellations, deletions that finish late, stop signals and saves, every order in which a save visits the databases, every fault of the file system, and every pair of moments", "why_tests_cant": "A test looks at the file after a save that nothing disturbed; whether a slow save can store something that was already overwritten, or a late one can put old contents back, depends on the interleaving of requests with each file of each save.", "anchors": ["crates/sourisd/src/v1_routes/state.rs: save, write_to_file, remove_db", "crates/sourisd/src/main.rs: main"]}
{"id": "C114", "title": "The list of databases on the disk names databases that exist together", "statement": "Look at the list of databases on the disk (the file that the server reads when it starts) at any moment while the server runs, and again later. Either it has not changed, or it names databases that existed together in memory at some moment between the two looks, each of them once, and all that existed then if no write of a file went wrong. A database whose removal was answered before the first look is not put on the list after it. Only if a write of the list went wrong may it hold just the beginning of such a list. This is for databases whose names are one path component and not `meta`.", "quantifier": "for every interleaving of requests, cancellations, deletions that finish late, stop signals and saves, every order in which a save visits the databases, every fault of the file system, and every pair of moments", "why_tests_cant": "The list is written after the lock of the databases has been released, so what it says depends on the requests that run in that gap, which a test does not hit except by chance.", "anchors": ["crates/sourisd/src/v1_routes/state.rs: save, remove_db, new", "crates/sourisd/src/main.rs: main"]}
{"id": "C115", "title": "The file of a removed database is gone and does not come back", "statement": "When the removal of a database has been answered with success, its file is not on the disk, and no save, no late deletion and no other request brings it back as long as no database of that name exists in memory: also not a save that was under way while the database was removed. This is for databases whose names are one path component and not `meta`, with the server's directory in place.", "quantifier": "for every interleaving of requests, cancellations, deletions that finish late, stop signals and saves, every order in which a save visits the databases, and every fault of its writes", "why_tests_cant": "The file is deleted after the lock of the databases has been released, while saves run beside it; that no save can write the file after its deletion depends on every possible interleaving.", "anchors": ["crates/sourisd/src/v1_routes/state.rs: remove_db, save"]}
{"id": "C116", "title": "Stopped while requests run and started again, the server has one moment's databases", "statement": "When the server is told to stop while requests are running, and is started again on the same directory, it has exactly the databases, with exactly the contents, that result from some order of the requests that explains all replies: every request that was answered before the last save began is in it, and none that was called later. This is for databases whose names are one path component and not `meta`, when the file system reports no fault and no removal is deleting one of their files during the last save.", "quantifier": "for every interleaving of requests, cancellations, the stop signal and saves, every order in which a save visits the databases, and all contents of the databases", "why_tests_cant": "A test stops a server at rest; what a restart finds depends on how the requests interleave with the signal, with each file of the last save, and with its list.", "anchors": ["crates/sourisd/src/v1_routes/state.rs: new, save, remove_db", "crates/sourisd/src/main.rs: main"]}
