# Design of the formal model of dochy

`/repo` (Rust) is read as text and never built.  The model is Lean 4 (4.33.0), project in `lean/`,
modules under `lean/Verif/`:

* `Verif/Model/*`  – executable definitions, one per Rust function, each citing file and lines.
* `Verif/Spec/*`   – small independent specifications (plain lists, sets, maps) used in statements.
* `Verif/Lemmas/*` – helper lemmas.
* `Verif/Props/*`  – the property theorems only (plus `example`s showing the hypotheses are satisfiable
  and, where the code violates a property, a theorem proving the negation on a concrete witness).
* `Verif/Tests/*`  – tests of the model against the project (see "Conformance tests"); nothing is proved from them.

## Trusted base

* The Lean kernel and the axioms `propext`, `Classical.choice`, `Quot.sound` (at most; printed with
  `#print axioms`).  No own axioms, no `sorry`, no `native_decide`, no `bv_decide`.
* The reading of the Rust source into the model.  The tie between code and model is textual (file/line
  citation on every definition); the code was not run.
* Rust standard library behaviour taken for granted: `Vec`, `BTreeMap`/`HashMap` as finite maps,
  iteration of a `BTreeMap` in key order, `Read::read_exact` failing on short input, `str`/UTF-8
  validity, `Mutex` = mutual exclusion, `mpsc` channel delivers every message once, a thread pool with one
  thread runs jobs in spawn order.
* Outside the model: snap compression (assumed `decompress (compress x) = x` as an explicit hypothesis),
  MetroHash (uninterpreted function of its input byte stream), IEEE arithmetic except where it is only
  compared by bits (floats are carried as bit patterns plus an abstract interface), regex engine (the two
  regexes are modelled as hand written recognisers), operating system file semantics other than
  "write appends bytes in order; crash leaves a prefix".  The raw pointers of `LinkedMap` are addresses in a heap of nodes; following a
  pointer to a dropped node is a panic of the model.

Panics (index out of range, overflow in checked arithmetic, `unwrap` on `None`) are modelled as an explicit
error result.

* Iteration of the hash maps of the source loader: `Env.order` gives any permutation of the entries, the same for the same entries. The
  code uses a fixed hasher; which permutation it gives (it depends on capacity as well) is not modelled. Theorems about it hold for all
  permutations; a negation that needs a certain permutation says so.

* The library `pest`: its combinators are modelled (`Model/Json5.lean`: ordered choice, greedy repetition without backtracking,
  predicates, implicit white space and comments between the parts of non-atomic rules, the tree of pairs), the generated code is not.
  The Unicode classes of `pest` are the parameter `Uni`; assumed of them (`Uni.Sound`): letters, marks, digits and connectors are not
  white space, and among the first 128 characters they are the ones of the standard. The depth of recursion is not limited in the
  model; the real parser overflows the stack on texts nested deeply enough. Positions (`Span`) are not part of the model of values.
* `str::parse::<f64>` is the parameter `pf`; assumed: it accepts exactly the texts of the documented grammar (`RustFloat`).
* `f64::to_string` is the parameter `disp` (C67, C68); assumed of it and of `pf` is the structure `Printer` of `Spec/Export.lean`: below 2^63 a
  float is printed without an exponent, as an integer or with a fraction; what is printed is read as the same float; integers are read as
  the nearest float; integers up to 2^53 are printed exactly. `printer_exists` shows that these laws can hold together.

## Conformance tests

The theorems are about the model. That the model is the code is read, not proved; the modules `Verif/Tests/*` test it. The code is not run: the
tests compare the model with what the repository records of runs. They are evaluated when the project is built (`#guard`, which fails the build
and adds no axioms, or `decide`), and they are not claims of the manifest.

* `Sizes.lean`: the manual records names and sizes of files that the program wrote. The model of the whole path (text of the source, object,
  changes, difference, compaction, bytes, statistics, choice of the phase in `f64`, name of the file, cache with shared memory) gives the same
  names and the same numbers of bytes: the three differences of efficiency.md (157, 155 and 37 bytes), the eleven history files of
  save_history_file_test.rs and load_history_file_test.rs, and the three removals of load_history_file_test.rs. The file with a tag is not
  among the latest two that the manual names, as C26 says.
* `Libraries.lean`: with MetroHash128 and the compression of snappy written down, the model gives the folder name
  `80a3e5062f0fbeede35cab8cab5d0826` of save_dochy_file_test.rs and the 130 bytes of `src.archive`. Both only come out with the path as it is
  given and as Windows joins it, and with CR LF: the same source has other hashes on other systems or under another path.
* `LinkedMap.lean`: all assertions of dochy_core/src/testing/test_linked_m.rs.
* `Manual.lean`: tests of the manual that load sources, adjust versions and call accessors.
* `Diffs.lean`: the tests of dochy_test/src/diff (parameters, references, lists, big structures), through the bytes of the differences. The test
  `test_in_add_add_add_add_remove`, which the project never runs, expects a wrong id.
* `SimpleHistory.lean`: the tests of dochy_fs/src/test_simple_history, most of which are commented out in the project; the random changes are
  replaced by a fixed sequence.
* `Compaction.lean`: the tests of dochy_compaction/src/testing, and test_hex_file_name.rs.
* `Export.lean`: the tests of the export and of the adjustment of versions of dochy_core/src/testing. The test of the adjustment prints an error
  where the text is loaded again, as C68 says.
* `Accessors.lean`: for 35 source folders, the accessor the model generates has the types, functions, keys and unwraps of the generated Rust file
  in the repository (nine files were written by an older generator, without `deconstruct`).

## Conventions

`Except`-like result types keep `Err` and `panic` as data.  u32/u64/i64/i128 values are modelled by
`Nat`/`Int` with explicit range hypotheses where the range matters, by `BitVec`/`UInt8` where the code does
bit manipulation.

## Plan per property

| id | modelled | how proved |
|----|----------|------------|
| C01 | `var_int.rs`, `signed_bytes.rs` on `Int` and byte lists | round trip by induction on base-256 digits |
| C02 | `encode.rs`, `decode.rs`, tag bit stream, data stream | induction over the value list with tag bit stream/data stream split |
| C03 | same | every reader step on a strict prefix ends in EOF error |
| C04 | `basic_compaction.rs`, `kval_enum.rs` accessors | case analysis; floats through abstract bit patterns (partial for float numeric part) |
| C05 | `decode` with explicit panic result | negation witness (length byte > 8), partial theorem for the rest |
| C06 | `string_compaction.rs`, `decimal_lib.rs` with regex recogniser | negation witness `"1a5"`, partial theorem for separator '.' |
| C07 | `url_string/*` | negation witness, exact characterisation of the result for every length |
| C08 | `store_ids.rs`, `write_store_ids.rs`, `read_store_ids.rs` | round trip by induction on bit words |
| C09–C13 | `dochy_diff` prepare/apply on trees of params/lists/refs; write/read of the diff | structural induction over nested lists; negation witnesses for moves, `Numbers` + nested list |
| C14–C17 | `linked_m.rs` as id-indexed node map with first/last/next_id | refinement to `List (Nat × V)`, invariant by induction over operations |
| C18–C19 | `version_adjuster/*` | structural induction; the exact result of an adjusted list, row by row (`Spec/AdjustExact.lean`); negation witness for nested lists |
| C20–C21 | `set_sabun.rs`, `root_obj.rs`, `var_type.rs` | decision logic + invariant over assignment histories |
| C22 | `validation/*` | structural induction; `C22_exact` characterises the valid objects by local conditions (`Spec/ValidExact.lean`) |
| C23 | `json_name.rs` with regex recogniser | decision logic over all strings |
| C24 | `deserialize_item.rs` `is_int`, number grammar of `json5.pest` | decision logic; negation witness `Infinity` |
| C25–C26 | `file_name/*` on character lists | round trip by induction; negation witness for tags |
| C27–C28, C52 | `algo/*`, float comparison as arbitrary decision oracle | invariant over save sequences |
| C29–C32 | `fs/*`, `file_hist/*`, abstract diffs with law `apply a (diff a b) = b`, directory = finite map from file name to file | invariant over operation histories; negation witness (non-cumulative + derive) |
| C33–C35 | `remove/*`, `file_histories.rs` | negation witness (cumulative, remove twice), partial theorem |
| C36 | `dochy_cache.rs` | cache coherence invariant |
| C37 | `apply_items.rs` | induction over arrival permutation |
| C38–C40 | byte-level file writing, crash = prefix | from C03 and C29; negation witnesses for overwrite and for half written archive |
| C41–C42 | mutex/fifo labelled transition system | invariant over schedules; negation witness |
| C43–C44 | `hash.rs`, `created_time_file.rs` | round trip |
| C45–C47 | `dochy_archiver2` | round trip with compression law; permutation invariance; negation witness |
| C48 | `phase_data.rs` encode/decode | corollary of C02/C04 |
| C49–C50 | `load_history_file.rs`, `save_history_file.rs` | negation witnesses; exact conditions (`Lost`, `Orphan`) from the invariant of histories |
| C51 | `btree_zipper.rs` | invariant of the merge state machine |
| C53–C54 | `filesys/*` | refinement of a map from (source, name) to objects, over saves, crashes, edits |
| C55 | `file_histories.rs` | list lemma, negation witness |
| C56–C59 | `json_to_rust/*` on parsed JSON values, `meta_table.rs`; order of hash maps = arbitrary permutation (`Env.order`) | mutual induction over JSON values; negation witnesses for names declared twice |
| C60–C63 | `tmp_list.rs`, `tmp_obj.rs`, arrays and scalars of `json_to_rust/*` | exact characterisation of what is loaded; negation witnesses together with the model of `linked_m.rs` |
| C64–C65 | `json5.pest` rule by rule over modelled combinators of `pest`; `de.rs`, `deserialize_item.rs` | both directions between the parser and an unordered grammar, by induction on fuel and on the length of the text; negation witness for escapes in names |
| C66 | the same model of the parser against the grammar of RFC 8259 | induction on the derivation in the grammar, through C64; negation witnesses for pairs of surrogates, U+2028 and large integers |
| C67–C68 | `my_json.rs` (the text), `rust_to_json/**` (the value), `json_to_rust/mod.rs:24-38`; reading is the model of C64 followed by that of C56 | the written text is derived in the grammar of C64; the printer of floats is a parameter with laws (`Printer`), for which an instance is constructed; induction on the definitions of lists; every object with a mutable item is shown to be refused, every other one to be read; negation witnesses |
| C69 | `dochy_intf/src/imp/**`, `member_desc.rs`, `ref_desc.rs`: the declarations (names of types, functions, variants, used types, what the bodies call) | names of types: exact condition; names of functions: they are told apart by their first and last words; induction over the definitions of lists; negation witnesses loaded from sources |
| C70 | bodies of the generated functions over `intf/root.rs`, `citem.rs`, `mitem.rs`, `table.rs` (`readRoot`, `readItem`, `readTable`) | exact result of every getter from what is stored; validation gives what is stored (`itemOk_of_valid`), loading gives that the maps have no name twice and every list is stored; negation witnesses loaded from sources; invariants of assignments and updates |
| C71 | the generated setters (`writeRoot`, `writeItem`, `writeRef`, `writeEnum`), ids of tables | frame theorems: the getter of the assigned member and all others |

| C72 | `dochy_diff` prepare/apply over maps from names (`Model/DiffNamed.lean`), with the definitions and meta tables of C56–C59 | refinement: the objects by id of C09–C13 are a function of the stored ones, and computing and applying commute with it; loading and validation give the hypotheses |
| C73 | single changes through the interface at any depth (`Spec/Session.lean`), tied to the functions of C20, C14 and C71 | a relation that changes keep and that is transitive, by induction over the session; then C72 |
| C74 | `list_dochy_files`, `common/list/*.rs`; directories are lists of entries or errors in any order | the items that an iterator state still returns, by induction over rounds and entries; then the disk of C39–C54 |
| C75 | `read_archive_data_from_directory.rs` on a folder given under any path, `json_file_to_rust.rs`, `Path::file_stem` | the object under two paths is the same; the hashed bytes are given exactly; for any folder with a file, two paths give different bytes (count of the lengths) |
| C76 | `Model/Pipeline.lean`: bytes of files → texts → json → object and hash (`json_dir_to_root.rs`, `archive_data_to_root.rs`, `archive_file_to_root.rs`, `archive_src_dir.rs`, `current_src_map.rs`), diffs, save files, adjusting | the laws that C39, C40, C53 and C54 assume (`FsOps.Lawful`) are proved for the composed functions from C45, C60, C03, C13, C72 and C73; a sample source of two versions meets every hypothesis |
| C77 | the readers and the application of diffs (`Model/DiffRead.lean`, `Model/DiffApply.lean`, `Model/DiffNamed.lean`) on arbitrary bytes | types of what is read (`Lemmas/DiffTyped.lean`), names that are kept (`Lemmas/DiffNamedKeep.lean`), together: what is loaded fits (`Lemmas/DiffNamedFits.lean`) |
| C78 | histories of real objects: `histOps` (`Spec/HistoryPipeline.lean`) gives the history of `Model/History.lean` the real diff | simulation of the real objects by objects by id, for which the diff is lawful (`Lemmas/HistoryReal.lean`, `Lemmas/HistoryPipeline.lean`) |
| C79 | sessions with moves: `SessionAny` (`Spec/SessionAny.lean`); what is restored: `LooseRoot` | by id (`Lemmas/DiffLoose.lean`), then by names (`Lemmas/DiffLooseNamed.lean`); histories as in C78 |
| C80 | `list_mut` on the heap of C14 (`Model/CopyOnWrite.lean`); sessions in which empty lists are copied (`Spec/SessionShared.lean`) | C17 for the list; a concrete run for the negation; the histories of C81 for what holds |
| C81 | the history on bytes with the cache (`Model/CacheFiles.lean`); runs: `CReach` (`Spec/HistoryCache.lean`); `AlikeRoot` (`Spec/SessionAlike.lean`) | a run with the cache is a run of what the files give (`Lemmas/HistoryCacheRun.lean`), and what is in the cache or in memory is a version of it; a diff applies to all versions of what it was made for (`Lemmas/DiffAlike.lean`) |
| C82 | casts between integers and floats, and `==` of floats (`Model/Source.lean`, `Model/Compaction.lean`) | specification about numbers in units of the least positive float (`Spec/Float.lean`); rounding on the grid of floats of one exponent |
| C83 | the whole loader of sources (`Model/Source.lean`: `item`, `list`, `obj`, `intoRoot`, `loadDir`) | inductive language of sources (`Spec/Grammar.lean`): what a value may be and what it is then; maps by what they have under each name, ids of list members by being 0 to n - 1; the members of an object read as folds (`ObjRun`), attributes as permutations |
| C84 | `should_shift_to_parent_phase` with division and comparison of `f64` on bits (`Model/Shift.lean`) | what a quotient of floats is, by the kinds of IEEE 754 numbers and the nearest float (`Spec/Float.lean`: `Rounds`, `Quotient`, `Format.lt`); averages as fractions of `ℚ`; false for very large numbers, sound below 2^53, exact if size times count is below 2^52 |
| C85 | saves, loads and removals of any files but the newest, in any order | `Spec/Removal.lean`: runs with removals (`ReachR`), the files a file needs (`Needs`); proof by a second run without removals that runs beside (`Sim`); the remover itself: negation witness for the default options, closure invariant for plain files and two phases |
| C86 | several processes, each with its cache, on one history directory | `Spec/Shared.lean`: processes take turns (`Shared`), each has its current file and its cache; removals as in C85; every run is a run of `ReachR`, where `other` lets another process take its turn; what the caches hold are objects of the common log; negation witness for names that are used again |
| C87 | C38, C78, C85 and C86 at once: bytes, interruptions, removals, several processes, real objects | `Spec/CrashRemoval.lean`: `BReachR` (bytes) and `RReachR` (objects); four runs beside each other (`BSim`): bytes or whole files, with or without removals |
| C88 | The size limit of the cumulative phase (`limit_nth`), found by a surviving wrong program | `Spec/Phase.lean`: `larger` counts the levels with a larger file; as documented it is violated (`C88_negation`), because the limit is looked at before the file is added |
| C89 | Saves of several processes that overlap: planning and writing are separate steps, in any interleaving | `Spec/Overlap.lean`: `OReach` with a condition on what may be written; logs are sorted by key, so that the invariant of C29 applies; three ways in which it is violated |
| C90 | What is in the JSON of an object | `Spec/ExportText.lean`: `Shuffled` relates objects that differ in the order of their maps, at every level; `ItemShown` says what the JSON of an item has. Constant lists are not written (C68) |
| C91 | Removing the folder of a version | `Model/Filesys.lean` `removeDir`, `removeSome`; runs in `Spec/Filesys.lean`. Negation: a removal while a process runs with an edited source lets it make the folder with the wrong archive; a removal that stops can leave files without their archive |
| C92 | How many files a load opens | `Model/History.lean` `ancestorsRev`, `load`. Negation: with max_phase 1 and without update_phase_0 the limit of the count does not bound the number |
| C93 | A split source is the same source | `Model/Source.lean` `loadDir`, `loadValid`; `Spec/Split.lean`. Negations: names declared twice; the empty root file of the manual |
| C94 | What is read from converted data | `Model/Adjust.lean`, `Model/SetGet.lean`; `Spec/Convert.lean` (the wrappers of the manual). Negations: a version in between without the member; a member that could be undefined in between |
| C95 | Lists in converted data | `Model/Adjust.lean`, `Model/SetGet.lean`; `Spec/Convert.lean`. Negation: items converted once more |

Known limits: no property so far is inexpressible; those depending on IEEE arithmetic (C04 float part, C27
decision) abstract the float operations, except for the casts and the comparison of C82.

## Disagreements between the code and the properties (findings)

Each one is proved as a negation on a concrete witness, beside a theorem about what does hold.

* C05: headers of variable length integers with an impossible length make `decode` panic.
* C06: the regular expression of the string compaction has an unescaped dot; strings such as `1a5` come back as `1.5`.
* C07: decoding a URL string gives an extra byte for some lengths.
* C25: tags and numbers of nine and more digits in file names are not parsed back; some odd names are accepted.
* C26: files with a tag are never listed; the first save with a tag writes the file and then fails; an empty tag makes the listing panic.
* C28, C52: `max_phase = 1` without updating phase 0 ignores the limit of count; `limit_nth > max_phase + 1` underflows.
* C88: the size limit of a cumulative phase does not count the file that is being added, so the documented bound is exceeded by any large last file.
* C89: nothing protects a history directory from other processes: overlapping saves overwrite or hide each other's files, and later files are loaded as other objects.
* C29: without `cumulative`, continuing a derived file of the last phase gives a file that cannot be loaded.
* C30, C32: false for saves with a tag.  C50: false for `max_phase = 0`, for derived cumulative files and for a stuck base; `C50_exact` says exactly when saves succeed.
* C14: `insert_with_id` of an existing id followed by an insertion leaves a dangling pointer (internal function).
* C15, C17: clone and construct of an empty list reset the next id.
* C16: `LinkedMapIter::is_last` calls `is_first`; `MListIterMut::prev` calls `next_mut`.
* C09, C12: moves are not recorded in a diff.
* C09, C11: a next id that changed alone (insert and remove) is not recorded, so a used id will be given again.
* C09: a change from `0.0` to `-0.0` is not recorded.  C10: NaN is always recorded.
* C10: equal strings, integer arrays and binaries in different allocations are recorded as changed.
* C09, C13: a change of an inner list with an id of 11 or more, or of an inner list together with a member with an id of 22 or more, is stored as numbers, which the reader rejects. `C13_exact_definitions`: definitions without such members are exactly those all of whose diffs can be read.
* C09, C10, C13: a defined list of the root object that may be undefined makes `get_diff` panic.
* C36: the cache holds the saved object itself, so what a diff loses (moves, next ids) is visible until the process ends and
  gone afterwards; whether equal strings are sent again depends on the cache.
* C37: a damaged diff is an error of sequential loading but aborts the process when loading with worker threads.
* C33: the remover takes files of the phase before the last one for cumulative files. With the default options, after a
  derivation, removing old files deletes files that the latest one needs. With `max_phase = 0` and cumulative files, nothing is
  marked but the file itself. Files of phases beyond `max_phase` lose their parents.
  Without derivations the first removal is safe, but not the next ones (C85): five saves, `remove_old_files` keeping one file, one save and
  `remove_old_files` again leave two files of which none can be loaded, and nothing can be saved any more.
* C86: the cache finds objects by file name. If one process removes all files (`remove_old_files` with 0) and saves, the name of the first
  file is used again; another process that is still running then loads its old object from the cache, and a file it saves is a diff
  against that old object, which is applied to the new one: it is loaded as something that was never saved.
* C34: of files of phases beyond `max_phase` not all are ever reported as removable.
* C18, C19: a list inside a list item is adjusted with the definition of the outer item, so its values and references are dropped.
  A member of a list item that may be undefined and was never assigned becomes undefined although the old version had it. The next
  id of an emptied list becomes 0.
* C20: `set_ref` accepts everything. After adjusting without validation to a version in which a list became a parameter, an
  assignment to it fails and is done nevertheless (root) or panics (list item).
* C22: defaults of references are not validated. The nullability of parameters of the root is not validated either.
* C23: names that are both nullable and undefiable can be written in two ways (`a!?`, `a?!`).
* C24: `Infinity` and `NaN` are taken for integers (no point, no `e`) and refused; hexadecimal integers with a sign and those of more
  than 32 bits are refused.
* C43: with overflow checks, a folder name of 32 bytes that has a byte below `0` or between `9` and `a` (also a hash in capitals)
  makes the list of folders panic; without overflow checks it is refused.
* C44: a damaged `created_time.dat` with a time of 2^63 seconds or more makes the list of folders panic.
* C47: paths and contents are written to the hash function without lengths or separators, so text can move from one file to the next
  without a change of the hash.
* C38: with worker threads (the default of loading), a history file that was cut within its diff can abort the process; with one
  thread it is an error.
* C39: an overwriting save empties the file before it writes; a crash then loses both the old and the new contents.
* C40: the archive of the source is written only if the file does not exist. A crash or a failure while it is written leaves a part
  of it (or an empty file) forever, and after the next edit of the source no save file of the folder can be loaded. The archive is
  made from the source at the time of the first save, not from the one that was read at the start; after an edit in between, save
  files are loaded as wrong objects. Saving under the name `src.archive` overwrites the archive.
* C41 holds. But a panic inside a save or a load poisons the mutex: nothing can be saved or loaded in the directory any more, and the
  callbacks of non-blocking saves are not called (`C41_after_panic`).
* C42: the counter shows only a save or load that has the mutex. A save in the queue of the pool, or one that waits for the mutex, is
  not counted, so two conditional saves by one thread, one after the other, both start.
* C49: the hash of the listed file is ignored. Files of older versions are looked up in the folder of the current version: loading
  fails, or loads the file of the same name there, which is another object. The code that adjusts versions is never reached.
* C55: if the newest folder has no files (a first save failed), there is no newest file although older files are listed.
* C56, C59: names declared twice are not refused: by the root object and a file, by two files of the same name in different
  directories, or as `a` and `a?` in one object. The later one wins, its id may equal the id of another member, the items of a
  replaced list stay behind, and if an id is not below the number of names, making the name table panics (`{a: 1, "a?": 2, b: 3}`).
* C58: the ids of the members and references of a list follow the order in which a hash map is iterated. The hash maps of the source
  loader are `FnvHashMap`s with a fixed hasher (`hash_m.rs`), so one build of the program gives the same ids in every run; this is
  not a defect of a single build. But the order belongs to the implementation of the hash map, which does not promise it, while the
  ids are stored in diff files. The negation is about two different orders, such as two versions of the standard library. The ids of the
  root do not depend on the order. (An earlier version of this file said that the ids differ from run to run; this was wrong.)
* C60: the ids of items in a source are not checked. Two items of a mutable list with the same `ID`, or a `NextID` (or number of items)
  that is not above all ids, are accepted. Walking the list, or the first walk after an insertion, then reads freed memory. The real
  validation walks the list, so it does so while loading; the model of the validation works on a plain list.
* C61: of two objects of a table with the same `ID` the first one is lost without an error.
* C65: escapes in the name of a member are not decoded (`deserialize_item.rs` takes the text between the quotes), while they are
  decoded in strings. `{"\u0061": 1}` declares the six characters `\u0061`, and `{"a": 1, "\u0061": 2}` is accepted although it
  declares `a` twice. (Loading refuses such names later, as names of members must match the regex of C23.)
* C66: the parser refuses some JSON. A pair of surrogates (`"\ud83d\ude00"`, the only way to escape a character beyond U+FFFF) is
  refused, as `deserialize_item.rs` decodes each `\u` by itself; U+2028 and U+2029 inside a string are refused, which JSON allows and
  which JSON5 allows too; integers beyond `i64` are refused. Escapes in names are not decoded (C65).
* C67: strings and names are written without escapes (`my_json.rs`). A string with a quote ends early and can change the structure of the
  text (`x", "y` becomes two strings), a backslash begins an escape, an end of line makes the text unreadable. -0.0 is read as 0.
  Numbers from 2^63 on are printed as long integers and refused, and infinities and NaN are printed as words that are refused.
* C68: `root_to_json_new_default` does not keep its comment ("can be converted back to RootObject").
  * Constant lists and tables are not written: lists are only written if they are in `sabun` (`root_to_json.rs:32-35`), and constant
    lists never are.
  * An object with an item in a mutable list cannot be read: `ID` is written as an integer, and `get_id` only accepts floats and strings.
    This is proved for every such object (`C68_items`). An object without such items, whose strings and numbers the format can express,
    is read again (`C68_plain_partial`), which also says what is lost: constant lists, undefined lists, and that lists can be undefined.
    What is read is written as the same text and read from it again (`C68_stable_partial`), unless a list of the root gave out ids and was
    emptied: its next id is in the text, but the reader makes it 0 (`C68_second_partial`, `C68_unstable`).
  * Integers beyond 2^53 are rounded (`get_param.rs:12`, `*i as f64`).
  * An undefined list is written as an empty one, that a list can be undefined is not written, and the next id of a list in an item is
    not written.
* C69: the generator of accessors does not check the names that it makes. Members `aB` and `a_b` give the same function; a member
  `a_def_val`, `a_mut` or `set_a` gives a function that is also made for a member `a`; members `new` and `from` give functions that every
  accessor has; a member `type` gives a keyword (`fn type`) and `_` no identifier; two lists with the same name in the items of different
  lists give the same type; ids of table entries may be any strings (`a b` is no variant, `self_` becomes `Self`, `aB` and `a_b` become
  the same); an empty table gives an enum with a representation and no variants; a reference to a table that does not exist, in a list
  without items, uses types that are not declared. When the names do not clash (`Good`), everything can be declared
  (`C69_declarable_partial`); names of small letters and digits are such names (`C69_plain_partial`). The names of the types are distinct
  exactly when those of the lists are (`C69_types`). Types of the prelude of the generated file (`use dochy::core::intf::*`, a glob
  import) are shadowed by generated ones and not modelled, nor is whether the bodies have the right types.
* C70: getters of the accessor call `unwrap` on values that nothing has checked. Validation does not look at defaults: the source
  `{ a: ["Int", null] }` is accepted and `a()` panics (`C70_negation_null`, `C70_negation_item`); a default of a reference may name an
  entry or a table that does not exist, or be null (`C70_negation_ref`, `_table`, `_refNull`). An `Enum` may hold null if its table is
  declared with `?`, and `get_enum` panics (`C70_negation_enum`). An item that was just inserted has no references, so the getters of its
  enum and of references without a default panic until they are assigned (`C70_negation_inserted`). After an update that was validated, a
  member of the root that was null before panics if it is no longer nullable (`C70_negation_adjusted`). With the check of defaults that is
  missing in validation (`rootOkB`), no function panics on any loaded object (`C70_checked`); assignments keep this (`C70_run_root`,
  `C70_run_item`, `C70_run_refs`), and so do updates if what is stored at the root fits (`C70_adjusted_partial`).
* C71: holds; the generated code ignores the results of the setters, but a value of the right type is always assigned. In an item in
  which a list is stored in the place of a parameter, which validation excludes, the setter panics.
* C72: holds as far as C09 does (the same exceptions). Bytes of diffs do not depend on the order of hash maps.
* C73: `set_enum` empties the references of an item and inserts one (`mitem.rs:399-403`); a diff records references that are there, never
  that one is gone (`compare_items.rs`). After an enum was changed from one table to another, the diff restores an item with two
  references. `get_enum` takes the first one in the order of the hash map, so the old value may be read (`C73_negation_enum`). Validation
  would refuse the object (`C73_negation_enum_invalid`) but is not run after diffs are applied.
* C73: a session of harmless changes may leave a state that a diff cannot express: a float assigned 1.0 and then -0.0 where it was 0.0, an
  item inserted and removed. For sessions that do not (`RootSettled`), and without moves, changed enums and undefiable lists in the root,
  the diff restores the object, from the source files on (`C73_loaded_partial`).
* C74: whether a folder of saved files that cannot be opened hides all others depends on the order of the system: returned first, the
  whole list is an error (`list_files.rs:29`); returned later, it is skipped (`list_files.rs:15`). Folders inside a hash folder are
  listed as files (`list_files_iterator.rs:78-85` does not look at the type). Names that are not UTF-8 are listed with replaced bytes:
  `calc_path` gives a path that is not theirs, and may be the same for two files.
* C75: the archiver uses the paths of the files as their names, together with the path of the folder as it was given
  (`read_archive_data_from_directory.rs:32-35`), and hashes them. The hash of a folder that was moved, or is given relatively once and
  absolutely another time, or as `./src` for `src`, is another one (`C75_negation`, for every folder that has a source file). Saved files
  are then taken for those of another version: they are in another folder, `C75_negation_load` shows one that is changed by being
  adjusted although the source is the same. The object itself does not depend on the path (`C75_object`).
* C76: holds for the sessions of C73 and the archives of C40. A save file consists of a diff only; loading applies it to the object that
  the bytes of the source give.
* C77: next ids are taken from the file as they are (`apply_list_diff.rs:10`, `set_next_id`). A file of nine bytes is loaded without an
  error and gives a list whose next id is the id of an item (`badNext`). The next insertion replaces the box of this item in the hash map
  and frees it, while the linked list still points to it (`linked_m.rs:242-248`): safe code then reads freed memory
  (`C77_negation_next`). Everything else that a definition demands of an object holds for whatever is loaded (`C77_fits`); entries of
  tables that references name are not looked at again (only validation does, and it is not run after diffs are applied).
* C78: C29 and C38 assume that a diff restores whatever was saved. The real diff does so only for some changes, and what a save compares
  with is what the files before are composed to. `RReach` is a run in which every object that is saved differs from what it is compared with
  by a change that a diff can express (`Saveable`); such a run is a run of the objects by id with lawful functions (`Simulates`), so that
  C38 can be used. What it excludes is lost: an object whose list had an item inserted and removed again is loaded with the next id
  that it had before (`C78_negation`, `C78_next_id_lost`), so that a removed item and a new one have the same id. `EReach`
  (`Spec/HistorySession.lean`) is a run with objects in memory, which are created, copied, loaded and edited through the interface; that what
  is compared fits, is kept and is related to what is saved by a session is then proved (`Keeping`, `EInv`), and `Fine` is all that is
  assumed of a save. `C78_save_partial` and `C78_save_stuck` are C50 for such runs: an object in memory can be saved exactly if the file that it continues is not stuck, and is loaded as it was. Simplified: `L.ptr`
  (which binaries are the same in memory) is fixed for a run; the cache is not in this model (C36 has it).
* C79: C73 asks that a session be settled: that it leaves no next id changed alone, no order changed alone, no zero with another sign. C79
  does not. `LooseRoot` says what is restored then: the same members, items and references, with next ids that are not greater than those
  that were there. `C79_negation_exact` shows that order and next ids are lost. Changing an enum is not such a change, as it removes a
  reference (`C73_negation_enum`). Histories do not give back what was saved then, so the operations on objects are not lawful and C78
  does not apply. The run is instead mapped to a run of what is stored (`Stored`: what was to be saved, what it was compared with, the
  diff), for which lawful operations exist always (`storeOps`, `Lemmas/HistoryLoose.lean`); `Rough` is what is asked of the real diffs, and
  that `apply` gives a thing that is `Loose`ly the saved one is carried along chains of any length, as every save compares with what
  loading gives and not with what was in memory. `C79_history_sample` is a run in which an item is moved and loaded in the old place.
* C80: C73, C78, C79 and C81 (`C81_history_partial`) simplify: the sessions there do not copy lists. In the code, cloning a root object shares
  its lists, saving into a history keeps a clone in the cache, and the next change copies the list; the copy of an empty list has the next id
  0 (`linked_m.rs:389-391`). So ids of removed items are given out again, and a diff to an older file takes the new item for the removed
  one: what is not set in it is loaded from the removed item (`C80_negation_history`). `RootUnshare` is this step; `C80_history_partial`
  has it at any time, at the price of asking at each save that what is set stays set in items with the same id (`RootStaysN`).
* C81: in C78 and C79 a save compares with what the files give. With the cache it compares with the object that was saved, or with what
  diffs gave when they were applied to it; the file is later applied to what the files before it give. The two differ in order, next ids
  and signs of zeros. `Version` says that an object is such a version of a file: it is alike (by id) to what the files give, and is compared
  with all older files of the chain like it. `RoughC` is what is asked of diffs: a diff from `a` to `s` applies to whatever is alike to `a`
  and gives something alike to `s`. Next ids may be smaller or greater here (`AlikeRoot`; `LooseRoot` had only smaller). What objects share
  in memory decides what strings, int arrays and binaries are written again: each save has its own oracle `pt`, which may be anything.
* The laws of `FsOps` (C39, C40, C53, C54) speak of the objects that are saved (`Good`), and of equality up to the order of maps (`Same`).
  That hashes do not collide is assumed for the versions that occur in a run only (`Versions`): for all sources it would be impossible,
  there are more than 2^128.
* C84: averages are compared in `f64` (`should_shift_to_parent_phase.rs`). With 35 TB in 254 files the average is larger by a fraction that
  rounding loses; with sizes from 2^53 on the sums are rounded too, and the code sees a larger average where there is none.
* C91: `remove_hash_dir` is said to be safe at any time. A process keeps the hash and the root object it started with, but a folder is made
  with the archive of the source as it is then. So the removal of a folder after an edit of the source, in a process that still runs, makes
  the next save write the wrong archive (`C91_negation_edit`). A removal that stops may have taken the archive and left files
  (`C91_negation_cut`). Other folders are never harmed (`C91_others`), and with an unchanged source a removal even mends a folder with a
  spoiled archive (`C91_again_partial`).
