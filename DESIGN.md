# Souris: formal model and proofs

Everything below is about the sources in `/repo` (crates `sourisdb`, `sourisd`, `mouse`), read as
text. The model is Lean 4 (`/verif/lean`), built with `lake build`.

## Trusted base

* Lean 4.33.0's kernel. Theorems use at most `propext`, `Classical.choice`, `Quot.sound`
  (`lean/Verif/Audit.lean` prints the axioms of every property theorem). No own axioms, no `sorry`,
  no `native_decide`, no `bv_decide`.
* The hand translation Rust -> Lean. Each definition cites file and lines. There is no mechanical
  link between the Rust and the Lean.
* 64-bit target (`usize` is 8 bytes), debug-style overflow checks where we say *panic*.
* External crates enter only as parameters or as hypotheses visible in theorem statements:
  lz4_flex (`decompress (compress b) = b`; modelled for C89), serde_json printing/parsing, chrono text formats,
  chrono-tz names, hash map iteration order (an arbitrary permutation), moka (a map that may drop any
  entry at any time), tokio's mutex (mutual exclusion; for C90 also that it is handed on in the order of asking), the file system (named files with
  non-atomic truncate + write), dialoguer's prompts, `FromStr` of floats and addresses, the clock.
* `std`: `String::from_utf8`/`to_string` are identified with Lean core's UTF-8 encoder/decoder,
  `char` with `Char` (both are Unicode scalar values).

## Layout

| directory | contents |
|---|---|
| `Verif/Model` | definitions transcribed from Rust, with file/line citations |
| `Verif/Spec` | small independent specifications (numbers, bool lists, abstract maps, ...) |
| `Verif/Lemmas` | helper lemmas |
| `Verif/Props` | property theorems `C01_...`, each with a concrete `example` |

Naming: `Cnn_name` is a full proof of (a conjunct of) the property; `Cnn_name_partial` proves it under
an extra hypothesis that is stated in the theorem; `Cnn_refuted_*` proves that the code violates the
property as stated, by a concrete witness (or for all inputs when the violation is universal).

## Plan per property

| id | model | proof |
|---|---|---|
| C01 | `Integer` with 16-byte content, generic byte width k | two's complement little-endian lemmas |
| C02 | `TryFrom<Integer>` generic in width | unsigned: full; signed: exact wrap-around law, refutation, partial when it fits |
| C03 | `Integer::ser/deser` over `Cursor` | round trip with arbitrary prefix/suffix |
| C04 | Rust `==` | refuted at unsigned zero; iff-characterisation |
| C05 | Rust `==` | refuted at 0u/0i; exact characterisation; equivalence relation |
| C06 | `Hash` as the token stream given to the hasher | direct |
| C07 | length of `ser` | from used-bytes characterisation |
| C08 | decimal printer/parser of i128/u128 | digit-list induction |
| C09 | `integer_trait_impl!` | exact when result representable; refutation by wrap; the law for all operands and both kinds of build, and exactly when the result is wrong |
| C10 | IEEE-754 bit patterns as exact dyadic rationals; the float in the error by `FloatFormat.ofRatio` | case analysis on exponent; refutations |
| C11 | `to_json/from_json` | from C02; refutation at -2^63-1 |
| C12 | `Cursor` | invariant by induction over operations |
| C13 | `Seek` impl | refuted; exact description |
| C14 | `Bits` | refinement to `List Bool`, induction over operations |
| C15 | `Bits::ser/deser` with f32 rounding of the length | the rounding is the nearest f32 (specified apart), which decides every length; partial up to 2^24 bits; refuted at 2^24+1 |
| C16 | `Bits` eq/hash/get_proper_bytes | proved for API-built; for deserialised ones every view and equality told exactly by splitting the backing bytes into bits and padding, refuted when padding is set |
| C17 | frequency table, heap, tree, table, encode, decode; iteration order a parameter | partial: >= 2 distinct symbols; refuted for 1 |
| C18 | code table | tree paths |
| C19 | cost of tree vs any tree with the same leaves | classical exchange argument |
| C20 | `Node::ser/deser` | structural induction |
| C21 | `decode` | induction on bits; refutation: leaf root panics; `C21_exact_partial` characterises the trees for which it holds |
| C22 | `rle/un_rle` | induction on runs |
| C23 | `lz/un_lz` over abstract codec | framing |
| C24 | `huffman/un_huffman` | from C15, C17, C20; decided for every string through the bytes that reading consumes |
| C25 | `BinaryData::ser/deser` | min_by_key + C22-C24; decided for every string |
| C26 | `Value::ser`, stack machine of `Value::deser` | mutual induction; refuted for maps, empty arrays, ...; never a wrong value: count of the values the stack still wants; binary data and texts: an equivalence, from where the reader stops; JSON with any floats: the same induction with a relation between the JSON written and the JSON read (`StorableWith`, `SameUpTo`) |
| C27 | stack machine | decreasing measure |
| C28 | explicit panic outcome | refutations; partial list of the only panic sources |
| C29 | PartialEq/Hash (hasher input as a list of items) | structural induction; refutations (NaN, signed zero, map order); partial; `C29_hash_exact_partial` characterises the values that hash like all their equals |
| C30 | accessors as a record per variant | case analysis |
| C31 | JSON conversion on an inductive JSON type; chrono's text is a parameter (the model of C86 in Props/ChronoUse) | induction on the fragment `Jsonable`, and the converse, so that the fragment is exact; refutations |
| C32 | tag tables | full byte range |
| C33 | `Store::ser/deser` | refuted for *every* store; C26 partial transfers to contents |
| C34 | `Store::ser/deser` | direct |
| C35 | `Store::ser` text collection | structural induction |
| C36 | `to_json/from_json`, `from_json_bytes` on bytes (Model/JsonBytes) | refuted; partial without the key "JSON"; bytes by C84_bytes |
| C37 | `SourisState` with cache and eviction | simulation with abstract map |
| C38-C40 | interleaving semantics: tasks with program points, atomic cache, lock and map steps, cancellation at every await | C39: history built at the step under the lock, invariant by induction over runs; C40 and C38 partial: invariant on cache and readers; refuting run for C38 |
| C41-C44, C50 | state functions and error table | case analysis |
| C45-C48 | file system as a map of paths, path resolution, truncate + write, failing writes (a failure in the last 2 MiB is not reported, as with `tokio::fs::File` without `flush`), crash points; `save`, `SourisState::new` | effect of one write, induction over the databases; refutations; C45 positive part for any deserialiser |
| C49 | lexical path resolution | refutation `../x`; partial without `/`; `C49_exact_partial` characterises the names that stay inside (`Spec/DiskNames`) |
| C51 | phases of `main` with requests in between; interleavings as for C74 | refuting runs; induction over runs for the positive parts |
| C52, C53, C56, C57 | both clients, method by method, over the daemon's request handler | from C26 (`C26_never_wrong_partial`), C41 and the simulation of C37; case analysis; refutations; with any floats in JSON: from C58 for the second reading |
| C58 | `Value::deser` on arbitrary bytes, then `ser` and `deser` | every combinator and every state of the loop yields storable values (`Yields`, `loops_keeps`), then C26, exactly or up to the last digits of floats in JSON; a float of many digits as counterexample, also through the daemon (`Props/Reread`) |
| C59 | histories of requests and evictions | induction over the history on the map-of-maps specification, simulation of C37 |
| C60 | `From<Integer> for f64/f32`; Rust's `as` as shift-and-round on bit patterns | the rounded significand is nearest among all multiples, and every float is a multiple of its spacing (`Grid`, `num_grid`, `castNat_spec`) |
| C61 | `Serialize`/`Deserialize` of `Integer`; serde_json's number syntax and number type | calls as data; grammar of JSON integers against the reader, both directions; `C61_tree_reads` and `C61_tree_writes` show that this reader agrees with the model of the whole of serde_json (C83, C84) |
| C62 | `Store::to_bytes/from_bytes`, the derives of a type as a parameter | from C33, C34, C36 |
| C63 | `to_polar_form`, `to_cartesian_form`, `polar_from_cartesian`; operations that round are a parameter with stated accuracy | arctangent under perturbation of its argument, quadrants, Mathlib's bounds of pi; C60, C10 for the integers |
| C64 | `new_with_english_frequencies` with its table | lemmas of C17-C21 on the tree of a table of distinct characters; the alphabet by evaluation of the table |
| C65 | `get_value_from_stdin` over a script of answers | relation `Spells` between values and answers, both directions, induction on it and on the bound |
| C66 | as C65 | construction of answers by induction on the value; induction on `Spells` for what cannot be typed; exact with the models of C86 and C87 |
| C67, C68 | `fun_main`, `pick_db_name`, `pick_db` over script, daemon and other clients, with a log | Hoare triples over runs; C41, C52, C56, C57 for the requests |
| C69 | as C65, C67 | outcomes of every dialog; equality of any two large enough bounds |
| C70 | `pick_db_name` and the commands that use it | equivalence with an inductive specification of choosing scripts; runs computed for scripts that choose, type and confirm |
| C71 | export and import branches, every command | a predicate on programs about the files written, closed under sequencing; C36 for the round trip; with the text of serde_json by C105 (C71_exact, C71_near_partial) |
| C72 | client requests and daemon replies as HTTP messages: query strings, routes, extractors, JSON results | decoding inverts every correct encoding (induction); each method over HTTP equals the method of the abstract client model |
| C73 | the router and the extractors | equivalence with an inductive specification of the interface |
| C74, C75 | the interleaving semantics of C38-C40 with the saver, the stop signal, the files and deletions that outlive a cancelled request as further steps | projection of runs onto C39; invariant on a save in progress by induction over runs; refuting run; decreasing rank |
| C76 | the interleaving semantics of C38-C40 | C39's order replayed on the map of maps of C37; nothing that touches the key can be between write and read |
| C77 | the serialiser of C26, C33 and the save of C48; in the proof only, a corrected reader that is not in the code | the corrected reader inverts the serialiser: mutual induction on values, the prefix property of Huffman codes, a bound on lengths; refuting family of stores |
| C78 | `Display` of values, bytes, complex numbers; tables, floats, IPv6 and which characters are printed as themselves are parameters | texts can be cut in one way only: induction on the value, first characters, digits and escapes; Model/DisplayBare is the variant without `std` |
| C79 | the serialiser of C26, C33 and the save of C48 | a Huffman code is no longer than a fixed-length one (optimality of the tree, C19); bound on each part by induction on the value, sums over the text |
| C80 | the deserialiser of C27 and the daemon of C37; that lz4 expands at most 255 times and JSON text at most 31 times are hypotheses, proved for the models of C89 and C83 (Props/Lz4Use, Props/JsonUse) | potential argument: a step of the loop returns at most 255 units for each byte it moves, by induction; invariant over requests; refuting family of bodies |
| C81, C82 | the daemon of C37; for C81_concurrent the interleaving semantics of C38-C40 | C37, then on the map of maps: what happens to a name depends on that name only; induction over two histories; simulation of a run by the run of a daemon with one database |
| C83 | serde_json 1.0.129's `to_string`, `to_string_pretty` and `from_str` on `Value`, and ryu's layout of floats, from their sources | printed text against an inductive grammar of JSON (C83_print: 17 digits always suffice, the shortest ones that round back); the reader is complete for the grammar; the errors of printing and reading a float add up to two parts in 10^15; refuting float and depth |
| C84 | the reader of C83: scratch integers, the fast float path with its table of powers, escapes, recursion limit | sound and complete against the grammar by induction on fuel and on derivations; correct rounding when both operands are exact; otherwise the error of every rounding is added up along the divisions; the reader on bytes (Model/JsonBytes) by simulation on the bytes of a text, and because what it consumes is UTF-8 (escapes never supply the later bytes of a character) |
| C85 | `convert_to_json`, `Store::to_json`, `Integer::to_json` (Model/ValueJson, Model/Integer*) against Spec/JsonForm, which spells out every member | induction on the value; sorted insertion keeps exactly the listed members |
| C86 | chrono's `Display` and `FromStr` of `NaiveDateTime` (Model/ChronoText) against the grammar of Spec/ChronoText and the calendar of Spec/Calendar | soundness and completeness of each scanner, composed; printed texts are instances of the grammar |
| C87 | std's `Display` and `FromStr` of floats and IP addresses (Model/StdText) against Spec/StdText: exact rational rounding, the grammar of RFC 4291, the form of RFC 5952 | the search for digits finds the shortest decimal, digits and exponents by scanner lemmas as in C84; groups and runs of zeros by induction |
| C88 | `Display for Value` (Model/Display with the texts of C83, C86, C87) against the inductive Spec/DisplayText | induction over the value; each leaf from the theorem about its text |
| C89 | lz4_flex's `compress` and `decompress` (Model/Lz4) with the answers of the hash table as a parameter, against the inductive block format of Spec/Lz4; consequences in Props/Lz4Use | what is written is a block: invariant of the search, of going back and of counting equal bytes; a block is read as what it says: induction over the block, copies are determined by their period; C25_refuted_lz4: blocks over two symbols have short descriptions, of which there are too few |
| C54 | `Imaginary::ser/deser` | from C03 |
| C90 | the semantics of C74 with the queue in front of the lock (Model/FairLock); endless runs and weak fairness in Spec/FairLock | the order by induction over runs; for endless runs the place in the queue and the remaining steps of the holder decrease lexicographically, and whoever has to work next can work; an explicit fair run |
| C91 | all variants of the ten error types with `Display`, derived `Debug` and the answers made from them (Model/ErrorText); texts of other libraries are arbitrary | the fixed beginnings of any two variants differ at a place that both have; what follows is cut into its parts by the lemmas about printed values |
| C92 | `Error::source` of the same types; the wrapped error as the relation `Holds`, root causes from it (Spec/ErrorText) | case analysis and induction along the chain; refuted for two variants |
| C93 | `Value::deser` as for C27 and the daemon as for C37; nesting as the relation `Nested` and the number of parts (Spec/Nesting) | invariant of the loop: the parts held by the stack never exceed the bytes consumed; refuted by an inductively built input |
| C94 | all writers and readers of bytes, as for C03, C15, C18, C24–C26, C33, C89; the format itself as relations between values and bytes (Spec/Wire) | rules for parsers that say which bytes they took (`Eats`), invariant of the loop for what is on the stack, induction on the value for writing and on the word for reading |
| C95 | both clients against any server (Model/Http `Line`; the daemon is one of them): URI, query, body, status, body pieces, JSON of names and results, creation statuses | case analysis of the outcome of each call against relations between answers and outcomes (Spec/AnyServer); violations by servers with one answer to everything |
| C96 | `Value::ser` and `Store::ser` on two occasions (Spec/Chance): any order of the entries of maps at any depth, any order of the hash maps of counts | size: induction over the reordering, with both Huffman trees optimal (C19) and hence of the same cost; bytes: nothing to reorder and no tree, or a tree without ties (Props/Untied: the least entry of a heap is the same in any order, and merging keeps all groups apart); violations by prefix-freeness of keys and by two databases computed in the kernel |
| C97 | every `#[test]` of the project, transliterated with its random input as a parameter (Model/RepoTests); a test passes if nothing in it panics | each from the theorem about the functions it calls (C01-C08, C15-C26, C61); `test_partialeq` exactly, by computing the masked bytes; the tests with fixed inputs are checked by the kernel, which also tests the model against what the authors expect |
| C98 | the derived `Serialize`/`Deserialize` of `Imaginary` (Model/ImaginarySerde) on serde_json's value tree | the parts by C61 and `f64Finite_iff`; reading is proved sound and complete against the specification `ComplexJson`; text by C83. Model/ImaginaryText is the derived code on serde_json's text without a tree in between, sound and complete against the grammar `ComplexText`; `ignore_value` (Model/IgnoreValue), which skips other members, is proved to take exactly the texts of the grammar `LooseDoc`, by induction on its rounds with the brackets that are open |
| C99 | `{:?}` and `{:#?}` of values, integers, binary data, complex numbers, JSON and stores, with core's builders and float formatting (Model/Debug) | every text is shown to be cut from whatever follows it in one way only, by induction over values; floats and timestamps by reading them back (`scientific_parse`, C86) |
| C100 | the lines that `fun_main` prints, with the texts of `CreationResult`, keys, names, quoted paths, values and stores (Model/MouseText) | each kind of line has a beginning that clashes with all others; what is quoted is cut as in C99; last lines from C68 |
| C101 | the choice of the base directory, `create_dir_all`, `dirs::data_dir` and the start of `main` up to the first request (Model/Launch) | the path as a fold over its pieces, against an inductive specification of the settings; creation by induction over the pieces; restart from C45 |
| C102 | what clap makes of the derives of `Arguments` and `Commands` (Model/MouseArgs) | exact against the grammar `CommandLine` of Spec/MouseArgs: by cases on what each argument looks like |
| C103 | `fromJson` then `toJson` then `fromJson` (Model/ValueJson, Model/Store) | the image of `fromJson` is characterised (`Tidy`), by induction on the JSON; on it C31_exact and C36_store_exact lose nothing; violated by every timestamp (C103_refuted_timestamp) and by one map under the key `JSON`; for texts by floats with many digits (C103_refuted_text_float), which change by at most two parts in 10¹⁵ (C103_text_near_partial, `NearTo` in Spec/ValueFloats) |
| C104 | `toJson` with both values of `add_souris_types` (Model/ValueJson, Model/Store) | exact, by induction on the value: without anything that needs a marker both forms agree; with it the unmarked form is read as a map or an array |
| C105 | `Store.toJson`, the printer and the reader of serde_json (Model/JsonText), `Store.fromJsonBytes` | C36_store_exact joined with C83; that deeper stores never come back is by induction on `Widened`: what a value is widened to is written as deep as the value, and what was read is written no deeper than the text it was read from |
| C106 | the benchmarks (Model/Benches), with the example file and the number of rounds as parameters | induction on the rounds; each round by the round trips of C17, C20, C22-C24 and C15, the database by C33_refuted |
| C107 | `Value.deser`, the parsers of its parts and `Store.deser` on bytes and on the same bytes with more behind them, and the extractor in front of the daemon (axum.rs L62-73) | `Streams`: a relation between a parser on a buffer and on the longer buffer, kept by every combinator and by each step of the loop; induction on the steps |
| C108 | the interleaving semantics with cancellation at every `await` (Model/Concurrent) | invariant over traces: the databases are the fold of the requests that worked on them, and a cancelled one did so only if it waits afterwards; a concrete trace for the violation |
| C109 | the interleaving semantics and the map of maps (C39) | any two operations of a linearization are ordered, and what lies between them is not apart from both; presence of a key or database is kept by all operations that do not remove it |
| C110 | the interleaving semantics with the cache (Model/Concurrent) | invariant over traces: what a task that holds the lock has read is the present, and what is in the cache is not older than any answer given; a concrete trace for the violation |
| C111 | the interleaving semantics with the cache (Model/Concurrent) | from two linearizations (C39) the same order for related requests; unrelated neighbours commute, so one linearization is sorted into the other by induction on its length; for `get_db` an invariant over race-free runs: the cached copy is the present |
| C112 | the interleaving semantics with the cache (Model/Concurrent) | the linearization (C39) restricted to the changes of one database has at most one element; for `get_db` the moment that C40 gives, and an invariant from that moment on; a concrete trace for the violation |
| C113 | requests, saves and deletions interleaved, with faults (`Model/Saver`, `Model/Disk`) | `C113_since` by induction over the run after the first look; `C113_requests` says the same in terms of the requests (C39 of the part of the run up to that moment); `saving_now`: the lock keeps what is still to be written equal to what is in memory. One write of a file is one step; a write cut short is the fault `after k`. Names are one path component and not `meta` (C49 is about the others) |
| C114 | as C113, with the list that a save writes at its end | `C114_list_partial` by induction over the run after the first look, with the names written so far as invariant (a sublist of the databases already visited, which with those still to be visited are all that exist). `C114_refuted_removed`: a run in which a removed database is listed. Names are one path component and not `meta` |
| C115 | as C113 | `C115_gone`: the only step that answers `rm_db` with success deletes the file, and C113 from there on |
| C116 | as C113, then `SourisState::new` on the resulting disk (`startWith`, with the deserialiser as a parameter) | `C116_restart_partial`: the files (C51), the list (`list_stays`) and its names (`Pass.listed`) are those of the moment of the last save, and starting reads them. `C116_refuted` with `Store::deser` |
| C55 | the interleaving semantics of C38-C40 | invariants on tasks and the lock; decreasing rank |

## Not modelled

TCP and the framing and headers of HTTP (query strings, routes and results are modelled for C72 and C73
by the documentation of form_urlencoded, axum and http), tracing, the texts of clap's help and how the prompts of `mouse` look (dialoguer is
taken to re-ask on empty or unparsable lines and to fail on a closed terminal), the code that serde's
derives generate (a parameter in C62, modelled for `Imaginary` in C98), memory exhaustion and stack overflow, the rounding of
the floating-point operations in C63 (bounded by hypothesis there).

JSON text is a parameter of the model of values (`Env`), so that theorems say what they need of it; it is
modelled for C83 and C84, and Props/JsonUse states the theorems that need something of it again for that
model, under the hypothesis `Env.Serde` that the parameters are that model. Likewise the text of timestamps is a
parameter that is modelled for C86, and Props/ChronoUse states its consequences under `Env.Chrono`. The text of
floats and addresses is a parameter of `Shows` and `Term`, modelled for C87; `Shows.withStd` and `Term.withStd`
put the model in (Props/StdText, Props/MouseStd). Of core's algorithms for floats, the result is modelled (shortest
digits, nearest float), not grisu, dragon, Eisel-Lemire and the table-driven steps.

lz4_flex 0.11.3 is a parameter of the model of values as well; it is modelled for C89, and Props/Lz4Use states the
consequences under `Env.Lz4`. Its source is not in the repository and could not be consulted: the model is the LZ4
block format and the algorithm of the crate as known, with everything that only affects how well it compresses (hash
function, size of the table, step sizes) left open. The hash table is taken to hold earlier positions only.

## Wrong programs

`seeded/LOG.jsonl` lists edits of the model, made in a copy, and what became of the theorems. Lines with
`"generated": true` are edits made by a program that swaps operators, numbers, branches and arguments at random places
of the model; for those that no theorem noticed, `note` says why the edit breaks no claim or which theorem was added.
