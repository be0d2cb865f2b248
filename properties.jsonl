{"id": "C01", "title": "Variable-length integers survive encoding", "statement": "Encoding any signed integer with the variable-length integer codec and decoding the produced bytes gives back the same integer, using the length-prefixed form inside a stream leaves exactly the following bytes unread, and no shorter byte string is ever needed than the codec emits (length at most 8 for 64-bit values, 16 for 128-bit values).", "quantifier": "every signed 64-bit integer and every signed 128-bit integer, every suffix of following bytes", "why_tests_cant": "2^64 (2^128) values with sign/byte-boundary special cases; tests sample a handful.", "anchors": ["dochy_compaction/src/enc_dec/var_int.rs: encode, decode, encode128, decode128, write, read", "dochy_compaction/src/enc_dec/signed_bytes.rs"]}
{"id": "C02", "title": "Value sequences survive binary encoding with exact consumption", "statement": "Writing any sequence of encodable values with `encode` and reading it with `decode` from a stream returns the same sequence (shared binaries come back as plain binaries) and consumes exactly the bytes that were written, so data placed after the block is read intact.", "quantifier": "every finite sequence of encodable values of every kind, every suffix of bytes that follows", "why_tests_cant": "Tags are bit-packed across value boundaries, so the interaction of every kind with every bit offset, count and length matters; the space is infinite.", "anchors": ["dochy_compaction/src/enc_dec/encode.rs: encode", "dochy_compaction/src/enc_dec/decode.rs: decode", "dochy_compaction/src/enc_dec/tag_storage.rs", "dochy_compaction/src/enc_dec/tag_reader.rs", "dochy_compaction/src/enc_dec/reader.rs"]}
{"id": "C03", "title": "Truncated blocks are always rejected", "statement": "If the byte block produced by `encode` is cut anywhere before its end, `decode` returns an error; it never returns a (shorter or different) sequence of values.", "quantifier": "every encodable sequence and every cut position", "why_tests_cant": "Every crash point inside every possible block has to be considered.", "anchors": ["dochy_compaction/src/enc_dec/decode.rs: decode", "dochy_compaction/src/enc_dec/reader.rs", "dochy_compaction/src/enc_dec/tag_reader.rs"]}
{"id": "C04", "title": "Typed compaction does not change values", "statement": "An integer, string, boolean, float or double that is compacted to its shortest encodable form is read back by the matching accessor as the same integer, string, boolean or number.", "quantifier": "every i64, every string, every bool, every f32/f64 bit pattern (numeric equality for floats)", "why_tests_cant": "Compaction chooses between several kinds at value boundaries (0, 1, i8 range, i64 range, length 16, 256); only sampled by tests.", "anchors": ["dochy_compaction/src/basic_compaction.rs: comp_int, comp_str, comp_double, comp_float", "dochy_compaction/src/kval_enum.rs: KVal::as_i64, as_string, as_bool, as_f64, as_f32"]}
{"id": "C05", "title": "Decoding arbitrary bytes never panics", "statement": "Giving `decode` any byte string whatsoever results in values or an error value, never in a panic or arithmetic overflow.", "quantifier": "every byte string", "why_tests_cant": "Malformed inputs are unbounded; fuzzing only samples them.", "anchors": ["dochy_compaction/src/enc_dec/decode.rs: decode", "dochy_compaction/src/enc_dec/var_int.rs: read, decode, from_bytes", "dochy_compaction/src/enc_dec/tag_reader.rs: read_next_1"]}
{"id": "C06", "title": "String compaction is lossless", "statement": "Compacting any string with the numeric string compaction and expanding the result gives back the identical string.", "quantifier": "every Unicode string", "why_tests_cant": "The compaction recognises a numeric pattern in arbitrary text; tests only try numbers.", "anchors": ["dochy_compaction/src/string_compaction.rs: to_enum, to_string, get_number, compress_strings, decompress", "dochy_compaction/src/enc_dec/decimal_lib.rs"]}
{"id": "C07", "title": "URL strings are lossless", "statement": "Converting any byte string to a URL-safe string and back yields the same bytes, and the string contains only URL-safe characters.", "quantifier": "every byte string", "why_tests_cant": "Behaviour depends on length modulo 3 and on all byte values.", "anchors": ["dochy_compaction/src/url_string/mod.rs, b8s_and_b6s.rs, char_and_b6.rs: get_url_string, get_bytes, to_b8s, to_b6s"]}
{"id": "C08", "title": "The set of changed member ids survives storage", "statement": "Whatever set of changed member ids a diff has to mention, the compact representation chosen for it (none, 64-bit mask, bit list, or list of numbers) is read back as exactly that set.", "quantifier": "every strictly increasing list of ids, every maximum id", "why_tests_cant": "The representation is chosen by five size thresholds and packed in 16/32/64-bit words; combinations are unbounded.", "anchors": ["dochy_diff/src/imp/write/store_ids.rs: calc_type", "dochy_diff/src/imp/write/write_store_ids.rs", "dochy_diff/src/imp/read/read_store_ids.rs"]}
{"id": "C09", "title": "A saved diff restores the saved object", "statement": "If a diff is computed from object A to object B of the same source and applied to A, the result has the same observable contents as B (every parameter value, every list, item id and reference).", "quantifier": "every pair of objects that come from the same source definition", "why_tests_cant": "Recursion over nested lists of arbitrary depth and every combination of changed/unchanged members.", "anchors": ["dochy_diff/src/imp/get_diff.rs: get_diff", "dochy_diff/src/imp/apply_diff.rs: apply_diff", "dochy_diff/src/imp/prepare/*", "dochy_diff/src/imp/apply/*"]}
{"id": "C10", "title": "A diff between equal objects is empty and harmless", "statement": "The diff from an object to itself mentions no member, and applying it leaves the object unchanged.", "quantifier": "every object", "why_tests_cant": "Recursive structural equality on unbounded data.", "anchors": ["dochy_diff/src/imp/prepare/get_root_diff.rs", "dochy_diff/src/imp/apply/apply_root_diff.rs"]}
{"id": "C11", "title": "Applying a list diff keeps item identities", "statement": "After applying a list diff, the ids present in the list are exactly the ids of the target list, deleted ids are gone, inserted items have the id they had in the target, and the next id to be issued is the target's.", "quantifier": "every pair of lists with the same definition", "why_tests_cant": "All combinations of deletions, modifications and insertions over unbounded id sets.", "anchors": ["dochy_diff/src/imp/prepare/get_mlist_diff.rs", "dochy_diff/src/imp/apply/apply_list_diff.rs"]}
{"id": "C12", "title": "The order of list items survives a diff", "statement": "After applying the diff from list A to list B, iterating the result visits the items in the same order as iterating B.", "quantifier": "every pair of lists reachable from each other by insertions, removals and moves", "why_tests_cant": "Any permutation of any size may be produced by moves.", "anchors": ["dochy_diff/src/imp/prepare/get_mlist_diff.rs", "dochy_core/src/imp/structs/linked_m.rs: move_to_first, move_to_last, move_to_prev, move_to_next"]}
{"id": "C13", "title": "Every diff that can be written can be read", "statement": "Reading back the serialised form of any diff succeeds and yields the same diff.", "quantifier": "every diff produced from a pair of objects with the same definition", "why_tests_cant": "The serialiser and the parser have separate code for three id representations, undefined markers, references and nested lists.", "anchors": ["dochy_diff/src/imp/write/write_root.rs", "dochy_diff/src/imp/read/read_root.rs", "dochy_diff/src/imp/read/read_list.rs"]}
{"id": "C14", "title": "Mutable lists behave like ordered lists of (id, item)", "statement": "Any sequence of insert-first/last/next/prev, remove, and move operations on a mutable list has exactly the observable effect (iteration order forwards and backwards, lookup, first/last, length) of the same operations on a plain ordered sequence of (id, item) pairs.", "quantifier": "every finite sequence of operations with any ids", "why_tests_cant": "Doubly linked pointers stored in a hash map; bugs appear only in particular operation orders.", "anchors": ["dochy_core/src/imp/structs/linked_m.rs: LinkedMap"]}
{"id": "C15", "title": "Item ids are never reused", "statement": "Within the life of a mutable list, an id handed out by an insertion has never been handed out before, whatever removals happened in between, including after cloning, diffing and reloading the list.", "quantifier": "every finite history of operations including clone and save/load", "why_tests_cant": "Depends on complete history including the empty-list corner.", "anchors": ["dochy_core/src/imp/structs/linked_m.rs: insert_first, insert_last, next_id, construct, clone"]}
{"id": "C16", "title": "Iterators report first/last and walk both ways correctly", "statement": "While iterating a mutable list, `next` and `prev` move to the neighbouring item in list order and `is_first`/`is_last` are true exactly at the ends.", "quantifier": "every list and every position", "why_tests_cant": "Symmetric functions are easily confused; tests check one direction.", "anchors": ["dochy_core/src/imp/structs/linked_map_iter.rs", "dochy_core/src/imp/intf/mlist_iter_mut.rs, mlist_iter_const.rs: next, prev, is_first, is_last"]}
{"id": "C17", "title": "Cloning a list preserves everything observable", "statement": "A cloned list has the same items in the same order, the same ids and issues the same next id as the original.", "quantifier": "every list", "why_tests_cant": "Corner cases such as the empty list after removals.", "anchors": ["dochy_core/src/imp/structs/linked_m.rs: clone, construct"]}
{"id": "C18", "title": "Version adjustment keeps every value that still has a place", "statement": "When data of an old source version is adjusted to a new source version, every stored value whose member exists with the same name in the new definition is kept unchanged, at the root and inside list items at every nesting depth; values whose member vanished are dropped and nothing else is invented except 'undefined' for members the old version did not have.", "quantifier": "every pair of definitions and every old object, every nesting depth", "why_tests_cant": "Schema pairs and nesting are unbounded.", "anchors": ["dochy_core/src/imp/version_adjuster/version_adjuster.rs: adjust_versions", "dochy_core/src/imp/version_adjuster/adjust_mut_list.rs", "dochy_core/src/imp/version_adjuster/adjust_mut_list_item_sabun.rs", "dochy_core/src/imp/version_adjuster/adjust_mut_list_item_ref.rs"]}
{"id": "C19", "title": "Adjusting to the same version changes nothing", "statement": "Adjusting an object to its own definition yields an object with the same contents.", "quantifier": "every well-formed object", "why_tests_cant": "Unbounded nesting.", "anchors": ["dochy_core/src/imp/version_adjuster/version_adjuster.rs: adjust_versions"]}
{"id": "C20", "title": "Assignments respect the declared type", "statement": "Setting a member succeeds only if the member is declared, the new value has the declared type and is null/undefined only if the member is declared nullable/undefiable; a failed assignment leaves the object unchanged; after a successful one reading the member returns the new value and all other members are unchanged.", "quantifier": "every object, member name, value", "why_tests_cant": "All combinations of declared and given types over all reachable objects.", "anchors": ["dochy_core/src/imp/structs/root_obj.rs: set_sabun", "dochy_core/src/imp/structs/util/set_sabun.rs", "dochy_core/src/imp/structs/var_type.rs", "dochy_core/src/imp/structs/rust_param.rs"]}
{"id": "C21", "title": "A member never set reads as its default", "statement": "Reading a member returns the last value assigned to it if there is one and the default declared in the source otherwise.", "quantifier": "every history of assignments", "why_tests_cant": "Depends on the entire history.", "anchors": ["dochy_core/src/imp/structs/root_obj.rs: get_param", "dochy_core/src/imp/structs/rust_list.rs: MutItem / ConstItem"]}
{"id": "C22", "title": "Validated references resolve", "statement": "If validation of an object succeeds, every reference stored in any list item, at any depth, that is neither null nor undefined names an existing entry of the table it refers to.", "quantifier": "every object", "why_tests_cant": "Unbounded nested data.", "anchors": ["dochy_core/src/imp/json_to_rust/validation/validate_root.rs", "dochy_core/src/imp/json_to_rust/validation/validate_refs.rs", "dochy_core/src/imp/json_to_rust/validation/validate_list.rs"]}
{"id": "C23", "title": "Member names are parsed into name and nullability uniquely", "statement": "A member name written in the source is accepted exactly if it is a legal identifier followed by one of the nullability suffixes, the suffix determines nullability/undefinability, and the bare name plus nullability determines an accepted written name.", "quantifier": "every string", "why_tests_cant": "Regular expression over all strings.", "anchors": ["dochy_core/src/imp/json_to_rust/json_name.rs: json_name, name"]}
{"id": "C24", "title": "Source numbers keep their kind", "statement": "A numeric literal accepted by the source grammar is read as an integer exactly if it denotes an integer written without fraction and exponent, and as a float otherwise, and never fails because of its kind.", "quantifier": "every literal of the grammar", "why_tests_cant": "Infinite grammar.", "anchors": ["dochy_json5/src/deserialize_item.rs, de.rs: is_int, parse_number", "dochy_json5/src/json5.pest: number"]}
{"id": "C25", "title": "History file names can be restored from their metadata", "statement": "For every history file name produced from metadata, parsing it yields exactly that metadata; different metadata give different names; and names that are parsed are regenerated identically up to leading zeros.", "quantifier": "every control number, parent control number, non-empty order list and tag", "why_tests_cant": "Parser limits depend on digit counts and tag characters.", "anchors": ["dochy_fs/src/imp/history/file_name/calc_filename.rs: calc_filename", "dochy_fs/src/imp/history/file_name/analyze_file_name.rs: analyze_file_name, get_tag, get_prev_ctl, get_num", "dochy_fs/src/imp/history/file_name/file_name_props.rs: FileNameProps"]}
{"id": "C26", "title": "Saved history files are listed", "statement": "After a successful save with any tag, listing the history shows the new file.", "quantifier": "every tag string and every history", "why_tests_cant": "Tags are arbitrary strings.", "anchors": ["dochy_fs/src/imp/history/file_name/analyze_file_name.rs: get_tag", "dochy_fs/src/imp/history/file_hist/create_file_history.rs"]}
{"id": "C27", "title": "The phase of the next history file is always legal", "statement": "The phase chosen for the next history file is at most one deeper than the base file's phase, never exceeds the configured maximum, never is 0 if updating phase 0 is disabled, and the size statistics stored in the new file describe exactly phase+1 levels.", "quantifier": "every option set accepted by the builder, every sequence of file sizes", "why_tests_cant": "Decision depends on an unbounded history of file sizes.", "anchors": ["dochy_fs/src/imp/history/algo/calc_next_phase.rs: calc_next_phase", "dochy_fs/src/imp/history/algo/phase_data.rs: pop_and_push, push", "dochy_fs/src/imp/history/algo/history_options.rs"]}
{"id": "C28", "title": "The cumulative phase never exceeds its count limit", "statement": "With a count limit n in the options, no chain of cumulative diff files in the last phase contains more than n files, whatever is saved.", "quantifier": "every option set with a count limit, every sequence of sizes and saves", "why_tests_cant": "Requires all save histories.", "anchors": ["dochy_fs/src/imp/history/algo/calc_next_phase.rs", "dochy_fs/src/imp/history/algo/history_options.rs: limit_count"]}
{"id": "C29", "title": "Every history file loads the object that was saved in it", "statement": "After any sequence of history saves (continuing, starting anew, deriving from older files), loading any listed file yields the object that was saved when the file was created.", "quantifier": "every finite sequence of save/load operations, every option set accepted by the builder, all object values", "why_tests_cant": "Dependency chains between files depend on the whole history; tests cover only few paths.", "anchors": ["dochy_fs/src/imp/history/fs/derive_impl.rs", "dochy_fs/src/imp/history/fs/load.rs", "dochy_fs/src/imp/history/fs/write_phase_0.rs", "dochy_fs/src/imp/history/file_hist/ancestors.rs: create_ancestors, create_dependencies", "dochy_fs/src/imp/history/pub_fn/save_history_file.rs", "dochy_fs/src/imp/history/pub_fn/load_history_file.rs"]}
{"id": "C30", "title": "The newest file is the last one saved", "statement": "Immediately after a successful history save, the file reported as newest is the file just saved.", "quantifier": "every history of saves", "why_tests_cant": "Order is encoded in numbers of all earlier files.", "anchors": ["dochy_fs/src/imp/history/file_hist/file_history.rs: get_newest_prop", "dochy_fs/src/imp/history/file_hist/file_history_item.rs: get_newest_prop"]}
{"id": "C31", "title": "Listing is complete and chronological", "statement": "Listing the history shows every saved, not removed file exactly once in the order in which the files were saved.", "quantifier": "every history of saves", "why_tests_cant": "Tree traversal order versus time order over all histories.", "anchors": ["dochy_fs/src/imp/history/file_hist/file_history.rs: list_files", "dochy_fs/src/imp/history/file_hist/file_history_item.rs: flatten", "dochy_fs/src/imp/history/remove/btree_zipper.rs"]}
{"id": "C32", "title": "Saving never overwrites a history file", "statement": "A history save always creates a file under a name that did not exist in the history directory before.", "quantifier": "every history of saves", "why_tests_cant": "Requires all histories.", "anchors": ["dochy_fs/src/imp/history/file_hist/ancestors.rs: create_dependencies", "dochy_fs/src/imp/history/fs/derive_impl.rs", "dochy_fs/src/imp/history/fs/start_new.rs"]}
{"id": "C33", "title": "Removing old files never breaks a kept file", "statement": "After removing old files with a number n of files to keep, each of the n latest files and everything needed to load it is still there, so it still loads the object saved in it.", "quantifier": "every history of saves, derivations and earlier removals, every n, every option set", "why_tests_cant": "Dependencies run through all phases and earlier removals.", "anchors": ["dochy_fs/src/imp/history/remove/history_remover.rs: keep, from", "dochy_fs/src/imp/history/remove/history_remover_item.rs: keep, from", "dochy_fs/src/imp/history/remove/composite_remover.rs", "dochy_fs/src/imp/history/file_hist/file_history.rs: remove_old_files, get_removable_old_items"]}
{"id": "C34", "title": "Files reported removable are exactly the unkept ones", "statement": "The removable files reported are exactly the listed files that were not marked to be kept (directly or as a dependency of a kept file), each reported once.", "quantifier": "every history and every set of kept files", "why_tests_cant": "Tree traversal over arbitrary histories.", "anchors": ["dochy_fs/src/imp/history/remove/history_remover.rs: get_removable_props", "dochy_fs/src/imp/history/remove/history_remover_item.rs: get_removable_props"]}
{"id": "C35", "title": "Removal across source versions keeps at least the requested number", "statement": "Removing old files of a whole project keeps at least the n latest files (over all source versions, newest version last) if that many exist, and removing with n = 0 removes everything.", "quantifier": "every list of per-version histories, every n", "why_tests_cant": "All size distributions.", "anchors": ["dochy_fs/src/imp/history/file_hist/file_histories.rs: remove_old_files, remove_old_files_us"]}
{"id": "C36", "title": "The phase cache never changes a result", "statement": "Loading or saving with the in-memory cache of earlier phases gives the same object / the same file contents as reading all ancestor files from disk.", "quantifier": "every sequence of saves and loads in one process", "why_tests_cant": "Cache state depends on the full history.", "anchors": ["dochy_fs/src/imp/history/diff_and_cache/dochy_cache.rs: apply_items_for_save, apply_items_for_load, get_cached_item, get_phase_cache, set_cache"]}
{"id": "C37", "title": "Multi-threaded loading equals single-threaded loading", "statement": "Loading with worker threads gives the same object as loading sequentially whatever order the workers finish in.", "quantifier": "every arrival order (permutation) of prepared diffs, every number of files", "why_tests_cant": "n! schedules.", "anchors": ["dochy_fs/src/imp/common/apply_items.rs: apply_items_st, apply_items_mt, apply_several_items"]}
{"id": "C38", "title": "A crash while saving a history file never damages earlier files and the torn file is detected", "statement": "If the process dies at any point while a history file is being written, every previously listed file still loads its object and the torn file, if it appears, yields an error instead of a wrong object.", "quantifier": "every crash point (prefix of the bytes), every history", "why_tests_cant": "Every crash point of every history.", "anchors": ["dochy_fs/src/imp/history/fs/write_phase_file.rs: write_phase_file", "dochy_fs/src/imp/history/diff_and_cache/open_diff_file_without_metadata.rs", "dochy_fs/src/imp/history/algo/phase_data.rs"]}
{"id": "C39", "title": "A crash while overwriting a save file never loses both versions", "statement": "If the process dies at any point of an overwriting save of a Dochy file, the old or the new contents can be loaded.", "quantifier": "every crash point of every overwriting save", "why_tests_cant": "Every crash point.", "anchors": ["dochy_fs/src/imp/filesys/save_dochy_file.rs: save_dochy_file"]}
{"id": "C40", "title": "The archived source matches the folder it is stored in", "statement": "The source archive stored next to save files is complete and is the source that the save files in that folder were made from, whatever crashes or source edits happened.", "quantifier": "every crash point and every interleaving of source edits with saves", "why_tests_cant": "Crash points and edit interleavings.", "anchors": ["dochy_fs/src/imp/common/path/prepare_hash_dir.rs: prepare_hash_dir", "dochy_fs/src/imp/common/current_src/current_src_map.rs: get_current_src_info"]}
{"id": "C41", "title": "Non-blocking saves are processed one at a time in call order", "statement": "Non-blocking history saves for one directory are processed one after the other in the order of the calls, each saving the object as it was at the time of the call, interleaved with blocking saves only at save boundaries.", "quantifier": "every schedule of callers and the worker", "why_tests_cant": "Every interleaving.", "anchors": ["dochy_fs/src/imp/history/pub_fn/save_history_file.rs: save_history_file_nb", "dochy_fs/src/imp/history/current_root_obj_info/fifo_thread.rs", "dochy_fs/src/imp/history/current_root_obj_info/mutex_g.rs, history_cache_map.rs: get_mutex"]}
{"id": "C42", "title": "'Save if vacant' saves only when no save is pending", "statement": "The conditional non-blocking save starts a save only if no other save for the directory is queued or running.", "quantifier": "every schedule", "why_tests_cant": "Every interleaving.", "anchors": ["dochy_fs/src/imp/history/pub_fn/save_history_file.rs: save_history_file_nb_if_vacant", "dochy_fs/src/imp/history/current_root_obj_info/mutex_g.rs"]}
{"id": "C43", "title": "Folder names and source hashes correspond one to one", "statement": "The folder name of a hash is 32 lower-case hex digits, converting it back gives the hash, and only such names are recognised.", "quantifier": "every 128-bit hash and every folder name", "why_tests_cant": "2^128 values, all names.", "anchors": ["dochy_fs/src/imp/common/path/hash.rs: hash_to_folder_name, folder_name_to_hash"]}
{"id": "C44", "title": "Creation times survive storage", "statement": "The creation time written for a source version is read back exactly.", "quantifier": "every time since the epoch", "why_tests_cant": "2^94 values.", "anchors": ["dochy_fs/src/imp/common/path/created_time_file.rs: create_time_dat, from_time_dat"]}
{"id": "C45", "title": "Source archives restore every file", "statement": "Reading an archive written from a set of source files yields the same paths with the same contents in the same order.", "quantifier": "every finite set of files", "why_tests_cant": "Unbounded sets and contents.", "anchors": ["dochy_archiver2/src/imp/write_items.rs: write_items", "dochy_archiver2/src/imp/read_archive.rs: read_archive", "dochy_archiver2/src/imp/structs/archiver.rs: Archiver"]}
{"id": "C46", "title": "Archive results do not depend on worker scheduling", "statement": "The order of files and the hash computed for a source directory are the same for every scheduling of the worker threads and every order in which the operating system lists the directory.", "quantifier": "every schedule, every directory listing order", "why_tests_cant": "n! schedules.", "anchors": ["dochy_archiver2/src/imp/structs/archiver.rs: Archiver", "dochy_archiver2/src/imp/read_archive_data_from_directory.rs"]}
{"id": "C47", "title": "Different sources get different hash inputs", "statement": "Two different sets of source files never feed the same byte stream to the hash function that names their folder.", "quantifier": "every pair of file sets", "why_tests_cant": "Pairs of unbounded sets.", "anchors": ["dochy_archiver2/src/imp/structs/hash_thread.rs", "dochy_archiver2/src/imp/structs/archiver.rs: finish"]}
{"id": "C48", "title": "The phase statistics survive storage", "statement": "The size statistics stored at the head of a history file are read back exactly and the diff that follows is untouched.", "quantifier": "every statistics record and every diff", "why_tests_cant": "Unbounded.", "anchors": ["dochy_fs/src/imp/history/algo/phase_data.rs: encode, decode", "dochy_fs/src/imp/history/algo/phase_data_item.rs", "dochy_fs/src/imp/history/fs/write_phase_file.rs"]}
{"id": "C49", "title": "Loading a listed file of an older source version loads that file", "statement": "Loading the data of a listed history file opens the file in the folder of the version it was listed in and adjusts it to the current version.", "quantifier": "every list of histories of several source versions", "why_tests_cant": "Combination of versions and files.", "anchors": ["dochy_fs/src/imp/history/pub_fn/load_history_file.rs: load_history_file, load_history_file_data"]}
{"id": "C50", "title": "Saving after loading any listed file succeeds", "statement": "After loading any listed history file, saving the (modified) object succeeds and creates a file whose dependencies are all present.", "quantifier": "every history and every listed file", "why_tests_cant": "All histories and base files.", "anchors": ["dochy_fs/src/imp/history/pub_fn/save_history_file.rs: save_history_file_impl", "dochy_fs/src/imp/history/file_hist/file_history.rs: get_parent"]}
{"id": "C51", "title": "The merged traversal visits each index once in ascending order", "statement": "Walking the files and the sub-folders of a history level together visits every index that has a file or a subtree exactly once, in ascending order, pairing the file and the subtree of the same index.", "quantifier": "every pair of ordered maps", "why_tests_cant": "Unbounded maps; a small hand-written state machine.", "anchors": ["dochy_fs/src/imp/history/remove/btree_zipper.rs: BTreeZipper::next"]}
{"id": "C52", "title": "Statistics lookup never panics", "statement": "Choosing the phase for the next file never panics for any options accepted by the builder.", "quantifier": "every option set accepted by the builder and every statistics record", "why_tests_cant": "Unbounded.", "anchors": ["dochy_fs/src/imp/history/algo/phase_data.rs: get_nth_largest_files_size", "dochy_fs/src/imp/history/algo/calc_next_phase.rs"]}
{"id": "C53", "title": "Save files are loaded as saved by every version", "statement": "After any run of saves, removals, source edits and restarts, loading a save file with the source version it was saved with gives the saved object, loading it with another version gives the adjustment of the saved object, and files that were not saved, were removed or were only written in part are never loaded.", "quantifier": "every run of processes, every save file, every version", "why_tests_cant": "Runs of arbitrary length over arbitrary versions, and every crash point.", "anchors": ["dochy_fs/src/imp/filesys/save_dochy_file.rs: save_dochy_file", "dochy_fs/src/imp/filesys/load_dochy_file.rs: load_dochy_file", "dochy_fs/src/imp/filesys/remove_dochy_file.rs: remove_dochy_file", "dochy_fs/src/imp/common/path/prepare_hash_dir.rs: prepare_hash_dir"]}
{"id": "C54", "title": "A save overwrites only with permission", "statement": "Saving without permission to overwrite fails if the name is taken and leaves all save files as they are, at every point of the save; otherwise a save whose diff can be made and whose folder can be prepared succeeds.", "quantifier": "every save directory, every save, every crash point", "why_tests_cant": "All directories and all crash points.", "anchors": ["dochy_fs/src/imp/filesys/save_dochy_file.rs: save_dochy_file"]}
{"id": "C55", "title": "The newest file over all versions is the last one listed", "statement": "The newest file that is reported for all source versions of a history directory is the last file in the chronological list of all files, and there is one whenever a file is listed.", "quantifier": "every history directory with any number of source versions", "why_tests_cant": "Every combination of folders and files.", "anchors": ["dochy_fs/src/imp/history/file_hist/file_histories.rs: get_newest_file_data, list_files", "dochy_fs/src/imp/history/pub_fn/list_histories.rs"]}
{"id": "C56", "title": "Root members are numbered in declaration order", "statement": "The members of a loaded source have the ids 0, 1, 2, … in the order in which they are declared: those of the root object first, then the files in the order of their names. The name table of the root has each member at its id.", "quantifier": "every parsed source directory, every iteration order of the hash maps", "why_tests_cant": "Every combination of files, names, suffixes and values.", "anchors": ["dochy_core/src/imp/json_to_rust/roots/json_dir_to_root.rs", "dochy_core/src/imp/json_to_rust/construct_root.rs", "dochy_core/src/imp/json_to_rust/json_obj_to_rust.rs", "dochy_core/src/imp/structs/root_obj.rs"]}
{"id": "C57", "title": "List members are numbered without gaps", "statement": "In every list definition of a loaded source, at every depth, the members have distinct names and the ids 0, 1, 2, …, and so have the references; so the tables by id can be made and have every member at its id.", "quantifier": "every parsed source directory, every nesting depth", "why_tests_cant": "Unbounded nesting of lists.", "anchors": ["dochy_core/src/imp/structs/list_def_obj.rs", "dochy_core/src/imp/json_to_rust/tmp/tmp_obj.rs"]}
{"id": "C58", "title": "Ids do not depend on the iteration order of hash maps", "statement": "Every member and every list member of a source has the same id whatever the order in which the implementation of hash maps iterates.", "quantifier": "every parsed source directory, every pair of iteration orders", "why_tests_cant": "The hasher is fixed, so a test sees only the one order of its build.", "anchors": ["dochy_core/src/imp/json_to_rust/tmp/tmp_obj.rs", "dochy_core/src/imp/json_to_rust/construct_root.rs"]}
{"id": "C59", "title": "Loading a source never panics", "statement": "Whatever the files of a source have in them, loading them returns an object or an error.", "quantifier": "every parsed source directory", "why_tests_cant": "All JSON values, unbounded nesting.", "anchors": ["dochy_core/src/imp/json_to_rust/json_item_to_rust.rs", "dochy_core/src/imp/json_to_rust/construct_root.rs", "dochy_core/src/imp/structs/root_obj.rs"]}
{"id": "C60", "title": "Items of mutable lists have ids of their own", "statement": "In every mutable list of a loaded source, at every depth, the ids of the items are distinct and below the next id of the list.", "quantifier": "every parsed source directory, every nesting depth", "why_tests_cant": "Every combination of given and missing ids; unbounded nesting.", "anchors": ["dochy_core/src/imp/json_to_rust/tmp/tmp_list.rs", "dochy_core/src/imp/json_to_rust/tmp/tmp_obj.rs", "dochy_core/src/imp/json_to_rust/get_id.rs", "dochy_core/src/imp/json_to_rust/list/list_attribute.rs", "dochy_core/src/imp/structs/linked_m.rs: construct"]}
{"id": "C61", "title": "No entry of a table is lost", "statement": "Every object of a table in a source becomes the entry under its ID, and there are no others.", "quantifier": "every table value", "why_tests_cant": "Every number of objects and every choice of ids.", "anchors": ["dochy_core/src/imp/json_to_rust/tmp/tmp_list.rs: to_data_items"]}
{"id": "C62", "title": "Values are loaded as they are written", "statement": "A scalar, an array of numbers or a null or undefined value is loaded with the type and the value that are written, and nothing else is loaded as a value.", "quantifier": "every JSON value", "why_tests_cant": "All JSON values, arrays of every length.", "anchors": ["dochy_core/src/imp/json_to_rust/json_item_to_rust.rs", "dochy_core/src/imp/json_to_rust/json_array_to_rust.rs", "dochy_core/src/imp/json_to_rust/array_null.rs", "dochy_core/src/imp/structs/rust_array.rs"]}
{"id": "C63", "title": "Items and list definitions have the members that are written", "statement": "A list item or a list definition has exactly the members that its object declares, each with the last value that is written for its name; a definition has the nullability that is written.", "quantifier": "every object, every iteration order of the hash maps", "why_tests_cant": "Every number of members and every order of iteration.", "anchors": ["dochy_core/src/imp/json_to_rust/json_obj_to_rust.rs", "dochy_core/src/imp/json_to_rust/tmp/tmp_obj.rs"]}
{"id": "C64", "title": "The parser accepts exactly the grammar", "statement": "A text has a value exactly if it is white space and comments, a value of the JSON5 dialect (null, undefined, booleans, strings with escapes, numbers in range, arrays, objects with distinct names, trailing commas, comments) and white space and comments; the value is the one of the grammar, it is unique, and no text makes the parser panic.", "quantifier": "every text", "why_tests_cant": "Texts of every length and nesting.", "anchors": ["dochy_json5/src/json5.pest", "dochy_json5/src/de.rs", "dochy_json5/src/deserialize_item.rs"]}
{"id": "C65", "title": "Names in quotes are the strings they stand for", "statement": "The name of a member written in quotes is the string that the same text stands for as a value.", "quantifier": "every text between quotes", "why_tests_cant": "All escapes and all strings.", "anchors": ["dochy_json5/src/json5.pest", "dochy_json5/src/deserialize_item.rs", "dochy_json5/src/de.rs"]}
{"id": "C66", "title": "JSON is read", "statement": "Every JSON text (RFC 8259) whose objects have distinct names is accepted by the parser of sources, and means the value that it means in JSON.", "quantifier": "every JSON text", "why_tests_cant": "Infinitely many texts; the escapes and the limits of numbers are where they differ.", "anchors": ["dochy_json5/src/json5.pest", "dochy_json5/src/deserialize_item.rs", "dochy_json5/src/de.rs"]}
{"id": "C67", "title": "The pretty printer writes what the parser reads", "statement": "The text written by to_string_pretty for a finite value with distinct names is read by the parser as the same value.", "quantifier": "every value of my_json::Value without infinities and NaN", "why_tests_cant": "Every nesting, every string and every number.", "anchors": ["dochy_core/src/imp/structs/my_json.rs", "dochy_json5/src/json5.pest", "dochy_json5/src/deserialize_item.rs"]}
{"id": "C68", "title": "An object written as JSON can be read back", "statement": "The JSON text of an object that was loaded from a source is read back as an object with the same members, whose parameters have the values that they had when the text was written.", "quantifier": "every object loaded from a source, every order of iteration of hash maps", "why_tests_cant": "Every schema and every value; the test only writes one sample.", "anchors": ["dochy_core/src/imp/rust_to_json/root_to_json.rs", "dochy_core/src/imp/rust_to_json/get_param.rs", "dochy_core/src/imp/json_to_rust/get_id.rs", "dochy_core/src/imp/json_to_rust/mod.rs"]}
{"id": "C69", "title": "The generated accessor can be compiled", "statement": "For every source that is loaded and validated, the source of the accessor declares every type, function and variant once, with an identifier as its name, and declares every type that it uses.", "quantifier": "every schema that can be loaded", "why_tests_cant": "Every set of names; the tests only generate accessors for a few samples.", "anchors": ["dochy_intf/src/imp/generate_root_source.rs", "dochy_intf/src/imp/util/to_type_name.rs", "dochy_intf/src/imp/structs/mitem_source.rs", "dochy_intf/src/imp/structs/table_source.rs", "dochy_core/src/imp/intf/member_desc.rs"]}
{"id": "C70", "title": "Functions of the accessor do not panic", "statement": "In an object that was loaded and validated, no function of the generated accessor that only reads panics: getters of parameters, defaults, lists, references, enums and entries of tables, at the root and in every item at every depth; this remains so after assignments through the accessor and after a validated update.", "quantifier": "every source, every object loaded from it, every sequence of assignments", "why_tests_cant": "Every combination of definitions, defaults and stored values; the tests read a few samples.", "anchors": ["dochy_intf/src/imp/structs/param_source.rs", "dochy_intf/src/imp/structs/refs_source.rs", "dochy_intf/src/imp/structs/table_source.rs", "dochy_core/src/imp/intf/root.rs", "dochy_core/src/imp/intf/mitem.rs", "dochy_core/src/imp/intf/citem.rs", "dochy_core/src/imp/json_to_rust/validation/validate_refs.rs"]}
{"id": "C71", "title": "What is assigned through the accessor is read through it", "statement": "After a value of the type of a member has been assigned through the accessor, its getter returns the value, and every other getter returns what it returned before; the same for references and enums. The ids of a table and the names and numbers of its entries correspond.", "quantifier": "every object, every member, every value that fits", "why_tests_cant": "Every schema and every value; the results of the setters are ignored by the generated code.", "anchors": ["dochy_intf/src/imp/structs/param_source.rs", "dochy_intf/src/imp/structs/ref_source.rs", "dochy_intf/src/imp/structs/refs_source.rs", "dochy_intf/src/imp/structs/table_source.rs", "dochy_core/src/imp/intf/root.rs", "dochy_core/src/imp/intf/mitem.rs"]}
{"id": "C72", "title": "Diffs of objects as they are stored", "statement": "Computing and applying diffs on objects as they are stored (hash maps from member names to values, definitions with ids, meta tables, as the source loader makes them) is the same as on objects whose members are addressed by id, for which C09 to C13 are stated: the bytes do not depend on the order of the hash maps nor on anything that is not compared, applying gives the same errors and corresponding objects, constant members are not touched, and a change that a diff can express is restored.", "quantifier": "every loaded and validated source, every pair of objects that fit its definition, every order of the hash maps, every byte string that is applied", "why_tests_cant": "Every definition, every nesting of lists and every iteration order of the maps; the tests compare a few sample objects in the one order that the hasher gives.", "anchors": ["dochy_diff/src/imp/prepare/compare_items.rs", "dochy_diff/src/imp/prepare/get_mlist_diff.rs", "dochy_diff/src/imp/prepare/get_root_diff.rs", "dochy_diff/src/imp/prepare/new_item.rs", "dochy_diff/src/imp/apply/apply_list_diff.rs", "dochy_diff/src/imp/apply/apply_lists.rs", "dochy_diff/src/imp/apply/apply_root_diff.rs", "dochy_core/src/imp/structs/meta_table.rs"]}
{"id": "C73", "title": "A session is restored by its diff", "statement": "A source is loaded, the object is changed through the interface by any number of assignments, insertions and removals at any depth, and the diff is written. Applied to the source loaded again, the diff gives the object as it was left.", "quantifier": "every valid source, every session of any length", "why_tests_cant": "Sequences of changes of unbounded length at every depth; a state that a diff cannot express can be the result of changes that are harmless one by one.", "anchors": ["dochy_core/src/imp/intf/mitem.rs", "dochy_core/src/imp/intf/mlist_mut.rs", "dochy_core/src/imp/intf/root.rs", "dochy_diff/src/imp/get_diff.rs"]}
{"id": "C74", "title": "The list of saved files is complete", "statement": "list_dochy_files ends, and returns exactly the saved files of all source versions: each once, with the path at which it can be loaded, sorted by modification time. What cannot be read does not hide other files.", "quantifier": "every content of the save folder, in every order in which the system returns it", "why_tests_cant": "The order of directory entries and errors of the file system are not under the control of a test; the iterator carries its state over folders.", "anchors": ["dochy_fs/src/imp/common/list/list_files.rs", "dochy_fs/src/imp/common/list/list_files_iterator.rs", "dochy_fs/src/imp/common/list/find_next_dir.rs", "dochy_fs/src/imp/common/list/file_data.rs"]}
{"id": "C75", "title": "A source is the same wherever it lies", "statement": "The object and the hash of a source folder depend on the names and contents of its files only: a folder that is moved, or given under another path, is the same version, and its save files are loaded unchanged.", "quantifier": "every folder, every two paths", "why_tests_cant": "Tests run with one path; save files outlive the process and may be loaded by one that names the folder otherwise.", "anchors": ["dochy_archiver2/src/imp/read_archive_data_from_directory.rs", "dochy_core/src/imp/json_to_rust/roots/json_dir_to_root.rs", "dochy_fs/src/imp/common/current_src/current_src_map.rs", "dochy_fs/src/imp/filesys/load_dochy_file.rs"]}
{"id": "C76", "title": "What is saved is what is loaded, from source bytes to file bytes and back", "statement": "Source files are parsed into an object, the object is changed through the interface, and saved. A process that is started later with the same source loads the object as it was left; a process with another version of the source loads it as adjusted to that version.", "quantifier": "every source, every session, every sequence of saves, crashes, edits of the source, removals and restarts", "why_tests_cant": "It composes every crate; each of the parts has an unbounded input, and the laws that one part assumes of another are not written down in the code.", "anchors": ["dochy_fs/src/imp/filesys/save_dochy_file.rs", "dochy_fs/src/imp/filesys/load_dochy_file.rs", "dochy_core/src/imp/json_to_rust/roots/archive_data_to_root.rs", "dochy_core/src/imp/json_to_rust/roots/json_dir_to_root.rs", "dochy_fs/src/imp/common/current_src/current_src.rs"]}
{"id": "C77", "title": "Whatever a save file contains, the loaded object fits its definition", "statement": "If any bytes at all are loaded as a save file of the current version without an error, the object fits its definition: every stored member is declared, values have the declared types, null and undefined occur only where the definition allows them, no list is missing, ids in a list are distinct and below the next id of the list, so that the object can be changed and saved again.", "quantifier": "every source, every content of the file", "why_tests_cant": "Files may be torn, edited or made by other programs; all byte strings cannot be tried, and an object that is wrong inside shows only when it is used.", "anchors": ["dochy_diff/src/imp/apply_diff.rs", "dochy_diff/src/imp/apply/apply_root_diff.rs", "dochy_diff/src/imp/apply/apply_list_diff.rs", "dochy_diff/src/imp/read/read_root.rs", "dochy_fs/src/imp/filesys/load_dochy_file.rs"]}
{"id": "C78", "title": "History files give back the objects that were saved, from source bytes to file bytes and back", "statement": "Objects of a source are changed through the interface and saved into a history, anew or derived from what was saved or loaded before, with any options. Every file that was written completely is loaded as the object that was saved; files of which the writing was interrupted are refused; a new process can go on saving.", "quantifier": "every source, all options, every sequence of sessions, saves, loads, interruptions after any number of bytes and restarts", "why_tests_cant": "The properties of the history assume a diff that restores any object, and the real one does not; what is composed from many files depends on every save before, so that a change that one diff does not express spoils files that are saved later.", "anchors": ["dochy_fs/src/imp/history/pub_fn/save_history_file.rs", "dochy_fs/src/imp/history/pub_fn/load_history_file.rs", "dochy_fs/src/imp/history/fs/derive_impl.rs", "dochy_fs/src/imp/history/diff_and_cache/dochy_src.rs", "dochy_fs/src/imp/history/diff_and_cache/dochy_diff.rs"]}
{"id": "C79", "title": "Whatever is changed, its diff applies, and loses only order, next ids and signs of zeros", "statement": "An object is changed through the interface in any way: values and references are assigned, items inserted, removed and moved. The diff can be computed and written, and applying it to the object before never fails: it gives an object that fits its definition and has the same values, items and references as the object after. Only the order of moved items, a next id that changed alone, and the sign of a zero may not be restored. The same holds for every file of a history.", "quantifier": "every source, every object that fits it, every sequence of changes", "why_tests_cant": "C09 and C73 say what is restored exactly only for some changes; that all others do no harm beyond what is listed is a claim about every combination of changes at every depth.", "anchors": ["dochy_diff/src/imp/get_diff.rs", "dochy_diff/src/imp/apply_diff.rs", "dochy_diff/src/imp/apply/apply_list_diff.rs", "dochy_core/src/imp/intf/mlist_mut.rs", "dochy_core/src/imp/structs/linked_m.rs"]}
{"id": "C80", "title": "Sharing a list with a clone does not change what later changes and saves give", "statement": "Cloning an object, and saving it into a history, which keeps a clone in memory, shares its lists. Whatever is changed and saved later is the same as if nothing were shared: items keep their ids, new items get ids that no item of the list had, and files are loaded as what was saved.", "quantifier": "every list, every object, every sequence of changes, clones, saves and loads", "why_tests_cant": "Whether a list is copied depends on which clones are alive at the moment of the change, and what goes wrong is seen only after a later save, when a new process loads the file.", "anchors": ["dochy_core/src/imp/structs/linked_m.rs", "dochy_core/src/imp/structs/rust_list.rs", "dochy_core/src/imp/structs/root_obj.rs", "dochy_fs/src/imp/history/diff_and_cache/dochy_cache.rs", "dochy_diff/src/imp/prepare/get_mlist_diff.rs"]}
{"id": "C81", "title": "Histories of programs that keep a cache lose only order, next ids and signs of zeros", "statement": "A program keeps the objects that it saved in a cache and compares what it saves next with them, not with what is in the files. Objects are created, loaded, copied, changed in any way through the interface and saved, with saves that fail or are interrupted. Every file that was written completely is loaded, with the cache and by a new process without it, as an object that fits its definition and has the values, items and references of the one that was saved.", "quantifier": "every source, all options, every sequence of creations, loads, copies, changes, saves, interruptions and restarts, whatever objects share in memory", "why_tests_cant": "The object in the cache and the object in the files are not the same, and every later diff is made for one and applied to the other; the difference grows with each save and is seen only by another process.", "anchors": ["dochy_fs/src/imp/history/diff_and_cache/dochy_cache.rs", "dochy_fs/src/imp/common/apply_items.rs", "dochy_fs/src/imp/history/fs/derive_impl.rs", "dochy_diff/src/imp/get_diff.rs", "dochy_diff/src/imp/apply_diff.rs"]}
{"id": "C82", "title": "Casts between integers and floats", "statement": "Integers of sources and of compacted values become the nearest float (ties to the even significand), floats that are ids or compacted values become integers by cutting towards zero with saturation and 0 for NaN, and floats are compared as numbers.", "quantifier": "every integer of 64 bits, every bit pattern of 64 and of 32 bits", "why_tests_cant": "There are 2^64 integers and 2^64 floats; the cases that matter (ties, the largest integers, subnormal numbers, NaN payloads) are rare.", "anchors": ["dochy_core/src/imp/json_to_rust/get_id.rs: get_id", "dochy_core/src/imp/json_to_rust/array_null.rs: array_null_or_undefined", "dochy_core/src/imp/json_to_rust/json_array_to_rust.rs: get_array", "dochy_core/src/imp/rust_to_json/get_param.rs: get_param", "dochy_compaction/src/basic_compaction.rs: comp_double", "dochy_compaction/src/kval_enum.rs: as_f64"]}
{"id": "C83", "title": "The language of sources", "statement": "Loading a source returns no error exactly for the sources of a stated language, and what is loaded is what the language says: every value, list, item, id, next id, reference and old name, at every depth. Everything else is refused with an error. If every name is declared once, a source is loaded exactly if it is in the language.", "quantifier": "every list of files with JSON values, every nesting of lists in lists, every order in which hash maps are iterated", "why_tests_cant": "The language is infinite and recursive; a loader that accepts a bit too much, or forgets an attribute in some combination, passes every test with sources that happen not to use it.", "anchors": ["dochy_core/src/imp/json_to_rust/json_item_to_rust.rs: json_item_to_rust", "dochy_core/src/imp/json_to_rust/json_array_to_rust.rs: json_array_to_rust", "dochy_core/src/imp/json_to_rust/list/json_list_to_rust.rs: json_list_to_rust", "dochy_core/src/imp/json_to_rust/json_obj_to_rust.rs: json_obj_to_rust", "dochy_core/src/imp/json_to_rust/tmp/tmp_list.rs: TmpList", "dochy_core/src/imp/json_to_rust/tmp/tmp_obj.rs: TmpObj"]}
{"id": "C84", "title": "Going to the parent phase follows the averages", "statement": "Whether a save goes to the parent phase is decided by comparing two average sizes in f64. Division and comparison are those of IEEE 754, and the result is that of comparing the averages as exact fractions.", "quantifier": "all sizes and counts; division and comparison for all pairs of floats", "why_tests_cant": "Rounding errors show only for rare combinations of large sizes; with 35 terabytes in 254 files the rounded averages are equal although the real ones differ.", "anchors": ["dochy_fs/src/imp/history/algo/should_shift_to_parent_phase.rs: should_shift_to_parent_phase"]}
{"id": "C85", "title": "Histories with gaps", "statement": "Save, load, restart and remove files in any order, where any files but the newest one may be removed. Loading a listed file gives exactly the object that was saved in it or an error, and never panics; it succeeds exactly if every file it needs is still there. If the files are removed by remove_old_files (keeping at least one), every listed file can still be loaded.", "quantifier": "all sequences of operations, all sets of removed files, all options", "why_tests_cant": "A gap matters only for particular later saves: with the default options, the loss shows after two removals with one save between them.", "anchors": ["dochy_fs/src/imp/history/file_hist/file_history.rs: remove_old_files", "dochy_fs/src/imp/history/file_hist/ancestors.rs: create_ancestors_rev", "dochy_fs/src/imp/history/fs/derive_impl.rs: derive_impl"]}
{"id": "C86", "title": "Processes that share a history do not disturb each other", "statement": "Several processes save into and load from the same history directory in turns, each with its own current object and its own cache, and files are removed in between. Whichever process loads a listed file gets exactly the object that was last saved in that file or an error, and every process gets the same answers and writes the same files with its cache as without it.", "quantifier": "all numbers of processes, all sequences of their operations, all removals", "why_tests_cant": "The cache of a process finds objects by file name and knows nothing of what other processes did; a wrong answer needs a name that is used again after a removal.", "anchors": ["dochy_fs/src/imp/history/diff_and_cache/dochy_cache.rs: get_phase_cache", "dochy_fs/src/imp/history/pub_fn/save_history_file.rs: save_history_file_impl", "dochy_fs/src/imp/history/file_hist/file_history.rs: remove_old_files"]}
{"id": "C87", "title": "Removed files, interrupted writes and several processes, from the bytes to the objects", "statement": "Several processes save objects of a source into one history directory and load them. Any save may be interrupted after any number of bytes, processes may end at any time, and any files but the newest one may be removed. A listed file is then loaded as the object that was saved in it if it is complete and every file it needs is still there; in all other cases loading it is an error, never a panic or another object.", "quantifier": "all usable sources, all sequences of operations, all points of interruption, all sets of removed files, all options", "why_tests_cant": "Interruptions, removals and several processes are tested one at a time, if at all; which combination leaves a file that can be read but does not belong to its parent is not visible from any single one of them.", "anchors": ["dochy_fs/src/imp/history/fs/derive_impl.rs: derive_impl", "dochy_fs/src/imp/history/fs/write_phase_file.rs: write_phase_file", "dochy_fs/src/imp/history/file_hist/ancestors.rs: create_ancestors_rev", "dochy_fs/src/imp/history/file_hist/file_history.rs: remove_files"]}
{"id": "C88", "title": "Size limit of the cumulative phase", "statement": "With a limit `limit_nth`, the total size of the files of a cumulative phase is less than the size of the nth largest diff file among the file and its ancestors.", "quantifier": "all option sets accepted by the builder, all sequences of saves of any sizes", "why_tests_cant": "Whether the limit holds depends on the sizes of all files of the chain and on when the check is made; the tests use files of nearly equal sizes and look only at the phases that come out.", "anchors": ["dochy_fs/src/imp/history/algo/calc_next_phase.rs: calc_next_phase", "dochy_fs/src/imp/history/algo/phase_data.rs: get_nth_largest_files_size"]}
{"id": "C89", "title": "Saves of several processes that overlap", "statement": "Several processes save into one history directory, and the steps of their saves (listing the directory, choosing a name, writing the file) are interleaved in any way. Every file that was written is listed, and is loaded as the object that was saved in it.", "quantifier": "all numbers of processes, all interleavings, all objects, all options", "why_tests_cant": "The mutex of a history directory is one of the process; between two processes the outcome depends on timing that tests do not control.", "anchors": ["dochy_fs/src/imp/history/pub_fn/save_history_file.rs: save_history_file_impl", "dochy_fs/src/imp/history/fs/derive_impl.rs: derive_impl", "dochy_fs/src/imp/history/fs/write_phase_file.rs: write_phase_file", "dochy_fs/src/imp/history/current_root_obj_info/history_cache_map.rs: get_mutex"]}
{"id": "C90", "title": "What is in the JSON of an object", "statement": "The JSON of an object, and its text, do not depend on the order in which the entries of the hash maps of the object come, at any level. It is a map sorted by names with every parameter and every list that has a value in the object. Under the name of a mutable list come the next id, the definition and the items in their order; each item has its id, its references and every one of its values, with the lists in it to any depth, and nothing else.", "quantifier": "all objects whose maps have each name once, all orders of their maps, all depths of lists in lists", "why_tests_cant": "The order of a hash map is chosen anew in every run, so a dependence on it shows in a test only now and then; the tests compare the JSON of a few objects with itself.", "anchors": ["dochy_core/src/imp/rust_to_json/root_to_json.rs: root_to_json_new_default", "dochy_core/src/imp/rust_to_json/list/tmp_json_list.rs: btree_map", "dochy_core/src/imp/rust_to_json/list/tmp_obj_to_json.rs: tmp_obj_to_json", "dochy_core/src/imp/rust_to_json/list/value_map_to_json.rs: value_map_to_json"]}
{"id": "C91", "title": "Removing the folder of a version is safe", "statement": "After the folder of a version is removed, at whatever time, the files of the other versions are loaded as before, the files of the folder are not loaded any more, and what is saved afterwards is loaded by every version as if the folder had never been there.", "quantifier": "every run of processes, every time of the removal, every point at which the removal stops", "why_tests_cant": "Runs of arbitrary length, and a removal can stop at any point.", "anchors": ["dochy_fs/src/imp/common/path/remove_hash_dir.rs: remove_hash_dir", "dochy_fs/src/imp/common/path/prepare_hash_dir.rs: prepare_hash_dir", "dochy_fs/src/imp/filesys/save_dochy_file.rs: save_dochy_file"]}
{"id": "C92", "title": "How many files a load opens", "statement": "A load of a history file opens one file for each phase down to that of the file, and in the cumulative phase also the files before it, of which there are fewer than the limit of the count; it reads no other file.", "quantifier": "every run of saves, loads, failures and restarts, every accepted option, every listed file", "why_tests_cant": "Runs of arbitrary length with arbitrary options; the tests load a few files and do not count what is opened.", "anchors": ["dochy_fs/src/imp/history/file_hist/ancestors.rs: create_ancestors_rev", "dochy_fs/src/imp/history/fs/load.rs: load", "dochy_fs/src/imp/history/algo/calc_next_phase.rs: calc_next_phase"]}
{"id": "C93", "title": "A source that is split into several files is the same source", "statement": "If members of the object in root.json5 are moved to files with their names, the source is loaded if and only if it was loaded before, and as an object with the same members, values, lists and old names; only the ids and the order of the members may differ.", "quantifier": "every object, every choice of members that are moved, every order of the files and of the hash maps", "why_tests_cant": "All ways to split all sources; the test has one source split in one way.", "anchors": ["dochy_core/src/imp/json_to_rust/construct_root.rs: construct_root", "dochy_core/src/imp/json_to_rust/roots/archive_data_to_root.rs: archive_data_to_root_with_hash", "dochy_core/src/imp/json_to_rust/roots/json_file_to_rust.rs: json_file_to_rust"]}
{"id": "C94", "title": "What is read from converted data", "statement": "When data of an old version is converted to a new one, a member reads as the value that was set in the old version, as undefined if the old version did not have it and the new one allows undefined, and as the new default otherwise; so the wrappers of the manual return the converted value for data of every version, whether or not it was saved by a version in between.", "quantifier": "all versions, all data, all sequences of edits, all conversion functions, any value", "why_tests_cant": "All pairs and chains of versions and all data; the tests convert a few samples.", "anchors": ["dochy_core/src/imp/version_adjuster/version_adjuster.rs: adjust_versions", "dochy_core/src/imp/intf/root.rs: get_param", "dochy_core/src/imp/structs/root_obj.rs: set_sabun"]}
{"id": "C95", "title": "Lists in converted data", "statement": "When data is converted to a new version, constant lists and tables are those of the new version; a mutable list has the items of the old data with their ids and in their order, and none of the items in the new source; each member of an item reads as the value that was set, as undefined if none was set and the new definition allows it, and as the new default otherwise; a list that the old version did not have is undefined if it may be, and asking for it gives an empty list.", "quantifier": "all versions, all data, all lists of the root, all items", "why_tests_cant": "All pairs of versions and all data; the manual has one sample of each.", "anchors": ["dochy_core/src/imp/version_adjuster/version_adjuster.rs: adjust_versions", "dochy_core/src/imp/version_adjuster/adjust_mut_list.rs: adjust_mut_list", "dochy_core/src/imp/intf/mitem.rs: get_param"]}
