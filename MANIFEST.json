{
 "claims": [
  {
   "property": "C01",
   "status": "proved",
   "theorems": [
    "Verif.Codec.C01_varint_roundtrip"
   ],
   "note": "Minimality is among non-empty byte strings (the empty string also decodes to 0 but is never written)."
  },
  {
   "property": "C02",
   "status": "proved",
   "theorems": [
    "Verif.Codec.C02_codec_roundtrip",
    "Verif.Codec.C02_encode_panics_iff"
   ],
   "note": "Floats as bit patterns; block and sequence shorter than 2^63."
  },
  {
   "property": "C03",
   "status": "proved",
   "theorems": [
    "Verif.Codec.C03_truncation_rejected"
   ],
   "note": ""
  },
  {
   "property": "C04",
   "status": "proved",
   "theorems": [
    "Verif.C04_compaction_lossless",
    "Verif.C04_compaction_through_codec",
    "Verif.Diff.C04_written"
   ],
   "note": "All typed values; float conversions f32<->f64 and truncation are uninterpreted, their laws are not needed because every path is guarded by an equality test."
  },
  {
   "property": "C05",
   "status": "partial",
   "theorems": [
    "Verif.Codec.C05_decode_panics_iff_partial",
    "Verif.Codec.C05_negation",
    "Verif.Codec.C05_negation_negative_length"
   ],
   "note": "The code violates the property; exact set of panicking inputs proved."
  },
  {
   "property": "C06",
   "status": "partial",
   "theorems": [
    "Verif.C06_lossless_iff_partial",
    "Verif.C06_pipeline_partial",
    "Verif.C06_negation",
    "Verif.C06_negation_date"
   ],
   "note": "Code violates the claim (unescaped dot in the regular expression); exact characterisation of the lossless lists is proved, and the counterexamples."
  },
  {
   "property": "C07",
   "status": "partial",
   "theorems": [
    "Verif.C07_url_roundtrip_partial",
    "Verif.C07_url_injective_partial",
    "Verif.C07_negation"
   ],
   "note": "Decoding appends a zero byte in some lengths; the round trip holds up to that byte, injectivity holds."
  },
  {
   "property": "C08",
   "status": "proved",
   "theorems": [
    "Verif.Diff.C08_ids_roundtrip"
   ],
   "note": "Member ids and reference ids, all representations, through the byte encoding, including the reading loops; fewer than 2^64 ids, bytes shorter than 2^60."
  },
  {
   "property": "C09",
   "status": "partial",
   "theorems": [
    "Verif.Diff.C09_diff_apply_restores_partial",
    "Verif.Diff.C09_small_definitions_partial",
    "Verif.Diff.C09_negation_move",
    "Verif.Diff.C09_negation_next_id",
    "Verif.Diff.C09_negation_zero",
    "Verif.Diff.C09_negation_unreadable",
    "Verif.Diff.C09_negation_undefiable"
   ],
   "note": "The code violates the claim for moves, a next id changed alone, 0.0/-0.0, unreadable diffs and defined root lists that may be undefined; in all other cases the object is restored exactly, to any depth of nesting."
  },
  {
   "property": "C10",
   "status": "partial",
   "theorems": [
    "Verif.Diff.C10_self_diff_empty_partial",
    "Verif.Diff.C10_self_diff_harmless_partial",
    "Verif.Diff.C10_empty_diff_harmless",
    "Verif.Diff.C10_negation_nan",
    "Verif.Diff.C10_negation_pointers",
    "Verif.Diff.C09_negation_undefiable"
   ],
   "note": "The diff is empty iff there is no NaN; a readable self diff is harmless always; get_diff panics on defined root lists that may be undefined."
  },
  {
   "property": "C11",
   "status": "partial",
   "theorems": [
    "Verif.Diff.C11_list_diff_ids_partial",
    "Verif.Diff.C11_negation"
   ],
   "note": "Ids, new items and (if there is a diff) the next id, for every two lists and any depth; a next id changed alone is lost."
  },
  {
   "property": "C12",
   "status": "partial",
   "theorems": [
    "Verif.Diff.C12_order_restored_iff_partial",
    "Verif.Diff.C12_negation"
   ],
   "note": "Order restored iff the common items are in the same order (exact); moves are lost."
  },
  {
   "property": "C13",
   "status": "partial",
   "theorems": [
    "Verif.Diff.C13_written_diff_readable_partial",
    "Verif.Diff.C13_small_definitions",
    "Verif.Diff.C13_get_diff_panics",
    "Verif.Diff.C13_negation",
    "Verif.Diff.C13_exact_definitions",
    "Verif.Diff.C13_few_members",
    "Verif.Diff.C13_negation_two"
   ],
   "note": "Exact: read back equal, or an error iff ids stored as numbers include a list; exact panic condition of get_diff. C13_exact_definitions: all diffs of a definition can be read if and only if lists inside of lists have ids below 11 and the members beside them ids below 22 (always with at most 11 members, or without lists inside)."
  },
  {
   "property": "C14",
   "status": "proved",
   "theorems": [
    "Verif.LinkedMap.C14_public",
    "Verif.LinkedMap.C14_run",
    "Verif.LinkedMap.C14_reachable",
    "Verif.LinkedMap.C14_negation_id_taken"
   ],
   "note": "Pointer-level heap model refines an ordered list for every run of the public operations, no side conditions. The internal insert_*_with_id may break the list when an automatic id is taken (negation theorem); C14_run gives the exact side condition. Ids are unbounded naturals (u64 overflow after 2^64 insertions not modelled)."
  },
  {
   "property": "C15",
   "status": "partial",
   "theorems": [
    "Verif.LinkedMap.C15_ids_fresh_partial",
    "Verif.LinkedMap.C15_negation_clone",
    "Verif.LinkedMap.C15_negation_construct"
   ],
   "note": "Holds for all runs with removals, moves and clones of non-empty lists. False after cloning an emptied list or constructing an empty list with a next id: proved by witnesses."
  },
  {
   "property": "C16",
   "status": "partial",
   "theorems": [
    "Verif.LinkedMap.C16_cursor_partial",
    "Verif.LinkedMap.C16_past_end",
    "Verif.LinkedMap.C16_start",
    "Verif.LinkedMap.C16_negation_is_last",
    "Verif.LinkedMap.C16_negation_prev"
   ],
   "note": "Holds for LinkedMapUnsafeIter and MListIterConst at every position of every reachable list. False for LinkedMapIter(Mut)::is_last and MListIterMut::prev: proved by witnesses."
  },
  {
   "property": "C17",
   "status": "partial",
   "theorems": [
    "Verif.LinkedMap.C17_clone_partial",
    "Verif.LinkedMap.C17_clone_nonempty_partial",
    "Verif.LinkedMap.C17_equal",
    "Verif.LinkedMap.C17_construct_partial",
    "Verif.LinkedMap.C17_negation_empty"
   ],
   "note": "Exact: the clone of any reachable list is the same list, except that the clone of an empty list has next id 0 (negation theorem)."
  },
  {
   "property": "C18",
   "status": "partial",
   "theorems": [
    "Verif.Core.C18_root",
    "Verif.Core.C18_lists_partial",
    "Verif.Core.C18_any_rule",
    "Verif.Core.C18_repaired_partial",
    "Verif.Core.C18_succeeds",
    "Verif.Core.C18_validated",
    "Verif.Core.C18_negation_nested",
    "Verif.Core.C18_negation_invented",
    "Verif.Core.C18_exact",
    "Verif.Core.C18_determined"
   ],
   "note": "Root members: proved for all objects. Lists: proved for items without items in nested lists in which every member that may be undefined is stored. False for nested lists (C18_negation_nested) and for members never assigned that may be undefined (C18_negation_invented). For every rule by which the definition of a nested list is found, C18_any_rule says what happens at every depth; with the declared one C18 would hold at every depth. C18_exact says what becomes of a list for every object, at every depth, and C18_determined that this determines its contents."
  },
  {
   "property": "C19",
   "status": "partial",
   "theorems": [
    "Verif.Core.C19_same_version_partial",
    "Verif.Core.C19_repaired_partial",
    "Verif.Core.C18_negation_nested",
    "Verif.Core.C18_negation_invented",
    "Verif.Core.C19_negation_next_id",
    "Verif.Core.C19_exact"
   ],
   "note": "False of the code for nested lists, for members never assigned that may be undefined, and for the next id of emptied lists. Proved for the other objects, at depth 1; with the declared definition for nested lists at every depth. C19_exact: a list keeps its contents if and only if everything stored is declared and every member that may be undefined is stored, the definition of the list being taken for the lists in its items as well; the next id is kept iff the list is not empty or has given out none."
  },
  {
   "property": "C20",
   "status": "partial",
   "theorems": [
    "Verif.Core.C20_root_partial",
    "Verif.Core.C20_item_partial",
    "Verif.Core.C20_ref_partial",
    "Verif.Core.C20_enum",
    "Verif.Core.C20_validated",
    "Verif.Core.C20_negation_root",
    "Verif.Core.C20_negation_item",
    "Verif.Core.C20_negation_ref",
    "Verif.Core.C20_negation_validated_null",
    "Verif.Core.C20_distinct_root",
    "Verif.Core.C20_distinct_item",
    "Verif.Core.C20_distinct_refs"
   ],
   "note": "Proved for parameters of the root and of list items for every object in which no list is stored for a parameter, in particular for every valid object. False for other objects (reachable by adjusting without validation) and for references, which are never checked."
  },
  {
   "property": "C21",
   "status": "proved",
   "theorems": [
    "Verif.Core.C21_root",
    "Verif.Core.C21_item",
    "Verif.Core.C21_default",
    "Verif.Core.C21_untouched",
    "Verif.Core.C21_default_iff"
   ],
   "note": "For every history of assignments, initialisations, edits through references and requests for lists, of the root and of list items."
  },
  {
   "property": "C22",
   "status": "proved",
   "theorems": [
    "Verif.Core.C22_exact",
    "Verif.Core.C22_refused",
    "Verif.Core.C22_old_weaker",
    "Verif.Core.C22_references_resolve",
    "Verif.Core.C22_references_new",
    "Verif.Core.C22_no_panic",
    "Verif.Core.C22_negation_default"
   ],
   "note": "C22_exact states for every object exactly when validation succeeds (Spec/ValidExact.lean: local conditions for the object, every definition and every item, at every depth). References that are not stored but come from the default in the definition are not validated (C22_negation_default)."
  },
  {
   "property": "C23",
   "status": "partial",
   "theorems": [
    "Verif.Names.C23_accepts",
    "Verif.Names.C23_refuses",
    "Verif.Names.C23_special",
    "Verif.Names.C23_unique_partial",
    "Verif.Names.C23_two_ways_partial",
    "Verif.Names.C23_negation",
    "Verif.Names.C23_written",
    "Verif.Names.C23_simple",
    "Verif.Names.C23_shared_name"
   ],
   "note": "Acceptance and meaning of the suffix are proved for every string; so is that written names are read back. Uniqueness is false for names both nullable and undefiable, which have exactly two written forms; proved for the others."
  },
  {
   "property": "C24",
   "status": "partial",
   "theorems": [
    "Verif.Number.C24_hex",
    "Verif.Number.C24_int",
    "Verif.Number.C24_fractional",
    "Verif.Number.C24_signed_hex",
    "Verif.Number.C24_words",
    "Verif.Number.C24_kind",
    "Verif.Number.C24_reads_partial",
    "Verif.Number.C24_negation_infinity",
    "Verif.Number.C24_negation_nan",
    "Verif.Number.C24_negation_signed_hex",
    "Verif.Number.C24_negation_long_hex",
    "Verif.Number.C24_finite"
   ],
   "note": "The result is determined for every literal of the grammar, and the kind is always right. False that nothing fails because of its kind: Infinity, NaN, hexadecimal integers with a sign or of more than 32 bits are refused. Parsing of floats by the standard library is a parameter that accepts its documented grammar."
  },
  {
   "property": "C25",
   "status": "partial",
   "theorems": [
    "Verif.FileName.C25_filename_injective",
    "Verif.FileName.C25_filename_roundtrip_iff_partial",
    "Verif.FileName.C25_regenerated_partial",
    "Verif.FileName.C25_negation_tag",
    "Verif.FileName.C25_negation_tag_panics",
    "Verif.FileName.C25_negation_digits",
    "Verif.FileName.C25_negation_regenerated"
   ],
   "note": "Injectivity holds for all metadata; the round trip holds exactly for untagged names with numbers of at most 8 digits (proved as an iff); the code violates the rest."
  },
  {
   "property": "C26",
   "status": "partial",
   "theorems": [
    "Verif.History.C26_saved_is_listed_partial",
    "Verif.History.C26_tagged_never_listed",
    "Verif.History.C26_negation",
    "Verif.History.C26_negation_first",
    "Verif.History.C26_negation_empty_tag"
   ],
   "note": "True for untagged saves; false for every tag: a tagged file is never listed, a first tagged save writes the file and then fails, and an empty tag makes listing panic."
  },
  {
   "property": "C27",
   "status": "proved",
   "theorems": [
    "Verif.Phase.C27_next_phase_legal"
   ],
   "note": "For every answer of the floating point comparison, over all chains of saves."
  },
  {
   "property": "C28",
   "status": "partial",
   "theorems": [
    "Verif.Phase.C28_count_limit_partial",
    "Verif.Phase.C28_negation"
   ],
   "note": "False for max_phase = 1 with update_phase_0 = false (negation proved); proved for all other accepted options."
  },
  {
   "property": "C29",
   "status": "partial",
   "theorems": [
    "Verif.History.C29_load_saved_partial",
    "Verif.History.C29_load_saved_cumulative",
    "Verif.History.C29_negation"
   ],
   "note": "Exact characterisation for untagged saves: every saved file loads the saved object except the files `Lost` (non-cumulative continuation of a derived last-phase file), which fail to load. Full for the cumulative option (the default). Diffs abstract with the law apply(a, diff(a,b)) = b; fewer than 10^8 - 1 files."
  },
  {
   "property": "C30",
   "status": "partial",
   "theorems": [
    "Verif.History.C30_newest_partial",
    "Verif.History.C30_negation"
   ],
   "note": "Proved for untagged saves; negated for tagged saves."
  },
  {
   "property": "C31",
   "status": "partial",
   "theorems": [
    "Verif.History.C31_listing_partial"
   ],
   "note": "Proved for untagged saves, any listing order of the directory; tagged files are never listed (C26). Removal is covered by C34."
  },
  {
   "property": "C32",
   "status": "partial",
   "theorems": [
    "Verif.History.C32_no_overwrite_partial",
    "Verif.History.C32_negation"
   ],
   "note": "Proved for untagged saves; negated for tagged saves."
  },
  {
   "property": "C33",
   "status": "partial",
   "theorems": [
    "Verif.Remover.C33_kept_files_load_partial",
    "Verif.Remover.C33_plain_partial",
    "Verif.Remover.C33_runs_partial",
    "Verif.Remover.C33_latest_stay_partial",
    "Verif.Remover.C33_negation",
    "Verif.Remover.C33_negation_one_phase",
    "Verif.Remover.C33_negation_deep",
    "Verif.Removal.C85_negation"
   ],
   "note": "False of the code: with the default options, going back to the third of four files, saving three times and keeping only the latest file removes files it needs (C33_negation); saves in a row with a removal between them lead to the same loss without any derivation (C85_negation); also with one phase of cumulative files, and for files of phases beyond max_phase. Proved for every directory without the cumulative option, for every run with two phases, for the first removal of every run without derivations, and for every directory of the shape Sound. C85_old_partial has any number of removals in the first two cases."
  },
  {
   "property": "C34",
   "status": "partial",
   "theorems": [
    "Verif.Remover.C34_removable_exact_partial",
    "Verif.Remover.C34_negation"
   ],
   "note": "Exact for every history whose files belong to the phases of the options and every set of kept files. False for files of phases beyond max_phase (C34_negation). The order in which hash maps report the files is not modelled."
  },
  {
   "property": "C35",
   "status": "proved",
   "theorems": [
    "Verif.Remover.C35_keeps_latest"
   ],
   "note": "For every list of versions with files of the phases of the options. Directory removal that fails is not modelled."
  },
  {
   "property": "C36",
   "status": "partial",
   "theorems": [
    "Verif.History.C36_cache_transparent_partial",
    "Verif.History.C36_runs_partial",
    "Verif.History.C36_cache_contents_partial",
    "Verif.History.C36_after_save_partial",
    "Verif.History.C36_negation_object",
    "Verif.History.C36_negation_contents"
   ],
   "note": "For every sequence of saves, loads and restarts, saving and loading with the cache equals saving and loading from disk, provided applying a diff gives the saved object back and diffs depend on values only. Violated by the code otherwise: a moved list item is visible through the cache but gone after a restart; strings are compared by address, so file contents depend on the cache."
  },
  {
   "property": "C37",
   "status": "proved",
   "theorems": [
    "Verif.ApplyItems.C37_same_object",
    "Verif.ApplyItems.C37_same_outcome",
    "Verif.ApplyItems.C37_some_run",
    "Verif.ApplyItems.C37_damaged_diff_aborts"
   ],
   "note": "Every arrival order, every number of files, also with missing files and failing diffs. Recorded difference: a diff that cannot be decoded is an error of sequential loading but aborts the process when loading with workers."
  },
  {
   "property": "C38",
   "status": "partial",
   "theorems": [
    "Verif.History.C38_interrupted_saves",
    "Verif.History.C38_earlier_files",
    "Verif.History.C38_go_on",
    "Verif.History.C38_threads",
    "Verif.History.C38_negation_threads",
    "Verif.History.C38_negation_threads_run"
   ],
   "note": "Files are byte lists; an interrupted save leaves any prefix of the new file; any number of interruptions, restarts, loads. Proved in full for one thread. With worker threads (the default) never a wrong object, but a file cut within its diff can abort the process instead of giving an error (negation). Files that the code loses without interruption (C29) are excepted exactly."
  },
  {
   "property": "C39",
   "status": "partial",
   "theorems": [
    "Verif.Filesys.C39_crash_partial",
    "Verif.Filesys.C39_others",
    "Verif.Filesys.C39_negation",
    "Verif.Filesys.C39_negation_run",
    "Verif.Pipeline.C76_lawful"
   ],
   "note": "False for every overwriting save: File::create empties the file first, so a crash before all bytes are written loses the old and the new contents (C39_negation, for every save that succeeds). Proved instead: what is loaded after a crash at every point (old before the file is opened, error while it is written, new afterwards), never a wrong object, and all other files are untouched. The laws of diffs and archives that are assumed are proved for the functions of the other crates (C76_lawful)."
  },
  {
   "property": "C40",
   "status": "partial",
   "theorems": [
    "Verif.Filesys.C40_archive_partial",
    "Verif.Filesys.C40_spoiled",
    "Verif.Filesys.C40_archiver",
    "Verif.Filesys.C40_negation_crash",
    "Verif.Filesys.C40_negation_edit",
    "Verif.Filesys.C40_negation_failure",
    "Verif.Filesys.C40_negation_name",
    "Verif.Pipeline.C76_lawful"
   ],
   "note": "False in four ways, each with a run: crash while the archive is written, source edited between the start of the process and its first save, failure of making the archive, a save under the name of the archive. Proved: over all runs the archive matches in every folder that was not spoiled in one of these ways. The laws of diffs and archives that are assumed are proved for the functions of the other crates (C76_lawful)."
  },
  {
   "property": "C41",
   "status": "proved",
   "theorems": [
    "Verif.SaveQueue.C41_one_at_a_time",
    "Verif.SaveQueue.C41_call_order",
    "Verif.SaveQueue.C41_object",
    "Verif.SaveQueue.C41_sequential",
    "Verif.SaveQueue.C41_boundary",
    "Verif.SaveQueue.C41_callbacks",
    "Verif.SaveQueue.C41_all_processed",
    "Verif.SaveQueue.C41_after_panic"
   ],
   "note": "Transition system of any number of callers, the one thread of the pool, the mutex and the counter; the work done inside the mutex is an arbitrary small-step program. All schedules: one at a time, in call order with the object of the call, equal to a sequential run, callbacks in order, no deadlock and termination. C41_after_panic is a finding: a panic inside the mutex disables the directory."
  },
  {
   "property": "C42",
   "status": "partial",
   "theorems": [
    "Verif.SaveQueue.C42_running_partial",
    "Verif.SaveQueue.C42_exact",
    "Verif.SaveQueue.C42_negation",
    "Verif.SaveQueue.C42_negation_running"
   ],
   "note": "False in the code: saves that are queued or wait for the mutex are not counted, so one thread can start two conditional saves in a row. Proved: the exact condition under which the call saves, and that it does not while a save is running proper."
  },
  {
   "property": "C43",
   "status": "partial",
   "theorems": [
    "Verif.HashDir.C43_name",
    "Verif.HashDir.C43_one_to_one",
    "Verif.HashDir.C43_round_trip",
    "Verif.HashDir.C43_exact",
    "Verif.HashDir.C43_recognised",
    "Verif.HashDir.C43_recognised_checked_partial",
    "Verif.HashDir.C43_negation",
    "Verif.HashDir.C43_negation_capitals",
    "Verif.HashDir.C43_listed"
   ],
   "note": "Proved for builds without overflow checks; with overflow checks exactly the names with a fatal byte panic instead of being refused."
  },
  {
   "property": "C44",
   "status": "proved",
   "theorems": [
    "Verif.HashDir.C44_round_trip",
    "Verif.HashDir.C44_before",
    "Verif.HashDir.C44_injective",
    "Verif.HashDir.C44_truncated",
    "Verif.HashDir.C44_damaged_panics"
   ],
   "note": ""
  },
  {
   "property": "C45",
   "status": "proved",
   "theorems": [
    "Verif.Archive.C45_round_trip",
    "Verif.Archive.C45_hash",
    "Verif.Archive.C45_refused",
    "Verif.Archive.C45_truncated"
   ],
   "note": "For sizes that fit in memory and compression that can be undone (hypotheses of the theorems)."
  },
  {
   "property": "C46",
   "status": "proved",
   "theorems": [
    "Verif.Archive.C46_listing_order",
    "Verif.Archive.C46_directory",
    "Verif.Archive.C46_write_order",
    "Verif.Archive.C46_read_schedule",
    "Verif.Archive.C46_read_progress",
    "Verif.Archive.C46_read_result",
    "Verif.Archive.C46_dir_schedule",
    "Verif.Archive.C46_dir_progress",
    "Verif.Archive.C46_terminates"
   ],
   "note": "Transition system of the caller, the pool, the archiving and the hashing thread; the directory does not change while it is read."
  },
  {
   "property": "C47",
   "status": "partial",
   "theorems": [
    "Verif.Archive.C47_negation",
    "Verif.Archive.C47_negation_files",
    "Verif.Archive.C47_lengths_partial",
    "Verif.Archive.C47_one_file",
    "Verif.Archive.C47_one_name",
    "Verif.Archive.C47_new_file"
   ],
   "note": "False: paths and contents are hashed without separators. Different inputs are proved for sets with the same lengths, and for one changed, renamed or new file."
  },
  {
   "property": "C48",
   "status": "proved",
   "theorems": [
    "Verif.Phase.C48_statistics_survive"
   ],
   "note": ""
  },
  {
   "property": "C49",
   "status": "partial",
   "theorems": [
    "Verif.History.C49_current_partial",
    "Verif.History.C49_saved_partial",
    "Verif.History.C49_exact",
    "Verif.History.C49_repaired",
    "Verif.History.C49_negation",
    "Verif.History.C49_negation_missing"
   ],
   "note": "False in the code for files of other versions than the current one: they are looked up in the folder of the current version. Proved for files of the current version, and for load_impl when it is given the hash of the file."
  },
  {
   "property": "C50",
   "status": "partial",
   "theorems": [
    "Verif.History.C50_exact",
    "Verif.History.C50_after_load_exact",
    "Verif.History.C50_plain",
    "Verif.History.C50_save_after_load_partial",
    "Verif.History.C50_negation",
    "Verif.History.C50_negation_cumulative",
    "Verif.History.C50_negation_plain"
   ],
   "note": "Decided: `C50_exact` says in every reachable state, for all accepted options, that a save succeeds iff the file it continues is not stuck (`Orphan`: of the last phase, not the newest, and its parent is not there; or `Lost`, C29), and that it fails without changing anything otherwise; `C50_after_load_exact` says so after loading, and when what was saved can be loaded; `C50_plain`: without the cumulative option and with max_phase > 0 every file that can be loaded can be saved after. The statement itself is false for max_phase = 0 and after derivations (negations). Missing: computations of the phase that panic (C52)."
  },
  {
   "property": "C51",
   "status": "proved",
   "theorems": [
    "Verif.History.C51_zipper"
   ],
   "note": ""
  },
  {
   "property": "C52",
   "status": "partial",
   "theorems": [
    "Verif.Phase.C52_no_panic_iff_partial",
    "Verif.Phase.C52_negation"
   ],
   "note": "Exactly the options with limit_nth <= max_phase + 1 never panic; the builder accepts others."
  },
  {
   "property": "C53",
   "status": "proved",
   "theorems": [
    "Verif.Filesys.C53_load",
    "Verif.Filesys.C53_no_other",
    "Verif.Pipeline.C76_lawful"
   ],
   "note": "Over all runs with edits, restarts, crashes at every point, removals. Loading with another version needs an archive that was not spoiled (C40); the laws of diffs and archives are hypotheses, those of archives are proved for the model of the archiver (C40_archiver). The laws of diffs and archives that are assumed are proved for the functions of the other crates (C76_lawful)."
  },
  {
   "property": "C54",
   "status": "proved",
   "theorems": [
    "Verif.Filesys.C54_no_overwrite",
    "Verif.Filesys.C54_saves",
    "Verif.Pipeline.C76_lawful"
   ],
   "note": "Names of the archive and of the time file are excepted (C40_negation_name). The laws of diffs and archives that are assumed are proved for the functions of the other crates (C76_lawful)."
  },
  {
   "property": "C55",
   "status": "partial",
   "theorems": [
    "Verif.History.C55_newest_partial",
    "Verif.History.C55_negation"
   ],
   "note": "False when the newest folder has no files; proved otherwise."
  },
  {
   "property": "C56",
   "status": "partial",
   "theorems": [
    "Verif.Source.C56_distinct_partial",
    "Verif.Source.C56_exact",
    "Verif.Source.C56_declares",
    "Verif.Source.C56_negation",
    "Verif.Source.C56_negation_files",
    "Verif.Source.C56_negation_suffix",
    "Verif.Source.C56_negation_items"
   ],
   "note": "Proved for sources that declare each name once; exact result for all others. False if a name is declared twice (negations). The JSON parser is not part of the model."
  },
  {
   "property": "C57",
   "status": "proved",
   "theorems": [
    "Verif.Source.C57_numbered",
    "Verif.Source.C57_table",
    "Verif.Source.C57_merged"
   ],
   "note": "All list definitions at every depth, every iteration order. C57_merged shows that `a` and `a?` in one list become one member."
  },
  {
   "property": "C58",
   "status": "partial",
   "theorems": [
    "Verif.Source.C58_root_partial",
    "Verif.Source.C58_names",
    "Verif.Source.C58_negation"
   ],
   "note": "True for the root. False for the members of lists, whose ids follow the iteration of a hash map: two orders give different ids. The hasher of the code is fixed (FNV), so within one build the order, and with it the ids, are the same in every run; the negation is about different implementations of the hash map."
  },
  {
   "property": "C59",
   "status": "partial",
   "theorems": [
    "Verif.Source.C59_distinct_partial",
    "Verif.Source.C59_values",
    "Verif.Source.C59_negation",
    "Verif.Source.C59_negation_all",
    "Verif.Source.C59_negation_file"
   ],
   "note": "Proved for sources that declare each name once, and for every single value; false otherwise, for every iteration order. Stack overflow by deep nesting is outside the model."
  },
  {
   "property": "C60",
   "status": "partial",
   "theorems": [
    "Verif.Source.C60_plain_partial",
    "Verif.Source.C60_exact",
    "Verif.Source.C60_live",
    "Verif.Source.C60_negation",
    "Verif.Source.C60_negation_default",
    "Verif.Source.C60_negation_next",
    "Verif.Source.C60_int_refused"
   ],
   "note": "Proved for sources without numeric ID and NextID, at every depth; exact ids for all others. False in general: same IDs or a small NextID are accepted and lead to a dangling pointer (with the model of linked_m.rs)."
  },
  {
   "property": "C61",
   "status": "partial",
   "theorems": [
    "Verif.Source.C61_distinct_partial",
    "Verif.Source.C61_exact",
    "Verif.Source.C61_negation"
   ],
   "note": "Proved for tables with distinct IDs; of objects with the same ID only the last one remains."
  },
  {
   "property": "C62",
   "status": "proved",
   "theorems": [
    "Verif.Source.C62_value",
    "Verif.Source.C62_unique"
   ],
   "note": "Equivalence with an inductive specification, for every JSON value. The parser of numbers is not part of this model (see C24). The conversion of an integer to a float is the function i64ToF64 of the model in both."
  },
  {
   "property": "C63",
   "status": "proved",
   "theorems": [
    "Verif.Source.C63_item",
    "Verif.Source.C63_def"
   ],
   "note": "Members that are values are characterised by the specification of C62; members that are lists by the loader of the list. References are not part of the statement."
  },
  {
   "property": "C64",
   "status": "proved",
   "theorems": [
    "Verif.Json5.C64_exact",
    "Verif.Json5.C64_unambiguous",
    "Verif.Json5.C64_total"
   ],
   "note": "The combinators of pest are modelled; the Unicode classes of pest and str::parse::<f64> are parameters with stated laws. Stack depth is not modelled."
  },
  {
   "property": "C65",
   "status": "partial",
   "theorems": [
    "Verif.Json5.C65_negation",
    "Verif.Json5.C65_negation_twice",
    "Verif.Json5.C65_exact",
    "Verif.Json5.C65_plain_partial"
   ],
   "note": "False in the code: escapes in names are not decoded. Exact: the name is always the text between the quotes. Holds for texts without escapes."
  },
  {
   "property": "C66",
   "status": "partial",
   "theorems": [
    "Verif.Json5.C66_within_limits_partial",
    "Verif.Json5.C66_negation",
    "Verif.Json5.C66_negation_surrogates",
    "Verif.Json5.C66_negation_separator",
    "Verif.Json5.C66_negation_integer"
   ],
   "note": "False in the code: pairs of surrogates, U+2028/U+2029 in strings and integers beyond i64 are refused, escapes in names are kept. Proved for all texts within these limits."
  },
  {
   "property": "C67",
   "status": "partial",
   "theorems": [
    "Verif.Export.C67_means",
    "Verif.Export.C67_clean_partial",
    "Verif.Export.C67_negation",
    "Verif.Export.C67_negation_quote",
    "Verif.Export.C67_negation_backslash",
    "Verif.Export.C67_negation_line",
    "Verif.Export.C67_negation_zero",
    "Verif.Export.C67_negation_large",
    "Verif.Export.C67_negation_infinity"
   ],
   "note": "False in the code: nothing is escaped, -0.0 becomes 0, numbers from 2^63 on are refused. Proved for strings that need no escapes and numbers below 2^63. The printer and the reader of floats are parameters with stated laws (structure Printer), shown to be satisfiable (printer_exists)."
  },
  {
   "property": "C68",
   "status": "partial",
   "theorems": [
    "Verif.Export.C68_plain_partial",
    "Verif.Export.C68_items",
    "Verif.Export.C68_negation",
    "Verif.Export.C68_negation_items",
    "Verif.Export.C68_negation_int",
    "Verif.Export.C68_negation_undefined",
    "Verif.Export.C68_negation_next",
    "Verif.Export.C68_second_partial",
    "Verif.Export.C68_stable_partial",
    "Verif.Export.C68_unstable"
   ],
   "note": "False in the code: constant lists are dropped, every object with an item in a mutable list is refused, integers beyond 2^53 change. Proved for objects without mutable items, with clean strings and numbers: the parameters and the definitions of the mutable lists come back, and the second text is the first but for the next ids of emptied lists. Not in the positive theorem: values that the format cannot express, old names of references."
  },
  {
   "property": "C69",
   "status": "partial",
   "theorems": [
    "Verif.Intf.C69_complete",
    "Verif.Intf.C69_types",
    "Verif.Intf.C69_used_partial",
    "Verif.Intf.C69_declarable_partial",
    "Verif.Intf.C69_negation_case",
    "Verif.Intf.C69_negation_at",
    "Verif.Intf.C69_negation_def",
    "Verif.Intf.C69_negation_mut",
    "Verif.Intf.C69_negation_set",
    "Verif.Intf.C69_negation_old",
    "Verif.Intf.C69_negation_new",
    "Verif.Intf.C69_negation_from",
    "Verif.Intf.C69_negation_ref",
    "Verif.Intf.C69_negation_keyword",
    "Verif.Intf.C69_negation_underscore",
    "Verif.Intf.C69_negation_nested",
    "Verif.Intf.C69_negation_key",
    "Verif.Intf.C69_negation_self",
    "Verif.Intf.C69_negation_variants",
    "Verif.Intf.C69_negation_empty",
    "Verif.Intf.C69_negation_used",
    "Verif.Intf.C69_negation",
    "Verif.Intf.C69_negation_enums",
    "Verif.Intf.C69_plain_partial",
    "Verif.Intf.C69_type_words",
    "Verif.Intf.C69_fn_words"
   ],
   "note": "False in the code: clashing names, keywords, ids that are no identifiers, empty tables, references without tables. Proved when the names do not clash (Good); exact for the names of types. Not modelled: types of the bodies, shadowed glob imports."
  },
  {
   "property": "C70",
   "status": "partial",
   "theorems": [
    "Verif.Intf.C70_root_value",
    "Verif.Intf.C70_root_lists",
    "Verif.Intf.C70_root_partial",
    "Verif.Intf.C70_item_value",
    "Verif.Intf.C70_item_lists",
    "Verif.Intf.C70_item_ref",
    "Verif.Intf.C70_item_partial",
    "Verif.Intf.C70_table",
    "Verif.Intf.C70_valid_partial",
    "Verif.Intf.C70_loaded_partial",
    "Verif.Intf.C70_checked",
    "Verif.Intf.C70_checked_params",
    "Verif.Intf.C70_run_root",
    "Verif.Intf.C70_run_item",
    "Verif.Intf.C70_run_refs",
    "Verif.Intf.C70_adjusted_partial",
    "Verif.Intf.C70_negation_null",
    "Verif.Intf.C70_negation_item",
    "Verif.Intf.C70_negation_ref",
    "Verif.Intf.C70_negation_table",
    "Verif.Intf.C70_negation_refNull",
    "Verif.Intf.C70_negation_enum",
    "Verif.Intf.C70_negation_inserted",
    "Verif.Intf.C70_negation_adjusted",
    "Verif.Intf.C70_negation"
   ],
   "note": "False in the code: defaults are not validated, an enum may hold null, inserted items have no references, nullability at the root is not validated after an update. Exact for every getter; proved for loaded objects whose defaults pass the missing check (rootOkB), also after assignments and updates."
  },
  {
   "property": "C71",
   "status": "partial",
   "theorems": [
    "Verif.Intf.C71_root",
    "Verif.Intf.C71_item_partial",
    "Verif.Intf.C71_ref",
    "Verif.Intf.C71_enum",
    "Verif.Intf.C71_ids"
   ],
   "note": "Proved for the root, references, enums and ids. For items: if no list is stored in the place of a parameter (validation ensures it; otherwise the setter panics, C20_negation_item)."
  },
  {
   "property": "C72",
   "status": "partial",
   "theorems": [
    "Verif.Named.C72_get_diff",
    "Verif.Named.C72_apply_diff",
    "Verif.Named.C72_restores_partial",
    "Verif.Named.C72_small_partial",
    "Verif.Named.C72_deterministic_partial",
    "Verif.Named.C72_frame",
    "Verif.Named.C72_level",
    "Verif.Named.C72_loaded_table",
    "Verif.Named.C72_loaded_fits_partial",
    "Verif.Named.C72_loaded_plain_partial",
    "Verif.Named.C72_sample_run",
    "Verif.Named.C72_negation_undefiable",
    "Verif.Named.C72_missing"
   ],
   "note": "The refinement is proved for all objects that fit (applying: for all objects and all bytes). The round trip has the exceptions of C09 and C13 (moves, next ids, zeros, definitions with unreadable diffs (C13_exact_definitions), undefiable lists of the root), each refuted there."
  },
  {
   "property": "C73",
   "status": "partial",
   "theorems": [
    "Verif.Named.C73_session_fits",
    "Verif.Named.C73_session_step",
    "Verif.Named.C73_session_partial",
    "Verif.Named.C73_loaded_partial",
    "Verif.Named.C73_sample",
    "Verif.Named.C73_api_set",
    "Verif.Named.C73_api_ref",
    "Verif.Named.C73_api_list",
    "Verif.Named.C73_api_inner",
    "Verif.Named.C73_api_root",
    "Verif.Named.C73_api_root_set",
    "Verif.Named.C73_negation_enum",
    "Verif.Named.C73_negation_enum_invalid"
   ],
   "note": "False for changed enums (C73_negation_enum), moves, and sessions that end with another zero or a next id changed alone. Proved for all other sessions of any length, from the source files to the restored object, for definitions all of whose diffs can be read (C13_exact_definitions) and no undefiable list in the root."
  },
  {
   "property": "C74",
   "status": "partial",
   "theorems": [
    "Verif.ListFiles.C74_exact",
    "Verif.ListFiles.C74_disk",
    "Verif.ListFiles.C74_once",
    "Verif.ListFiles.C74_save",
    "Verif.ListFiles.C74_remove",
    "Verif.ListFiles.C74_sample",
    "Verif.ListFiles.C74_negation_order",
    "Verif.ListFiles.C74_negation_folder",
    "Verif.ListFiles.C74_negation_name",
    "Verif.ListFiles.C74_negation_panic",
    "Verif.ListFiles.C74_text",
    "Verif.ListFiles.C74_name_iff",
    "Verif.ListFiles.C74_replaced",
    "Verif.ListFiles.C74_missing"
   ],
   "note": "Exact for all contents and orders. Refuted: a folder that cannot be opened makes the whole list an error if the system returns it first, and is skipped otherwise; folders inside are listed as files; names that are not UTF-8 get a path that is not theirs."
  },
  {
   "property": "C75",
   "status": "partial",
   "theorems": [
    "Verif.Pipeline.C75_object",
    "Verif.Pipeline.C75_exact",
    "Verif.Pipeline.C75_negation",
    "Verif.Pipeline.C75_negation_hash",
    "Verif.Pipeline.C75_negation_load",
    "Verif.Pipeline.C75_stem",
    "Verif.Pipeline.C75_stem_whole"
   ],
   "note": "Proved for objects. False for hashes, for every folder that has a source file: the path of the folder is hashed. A save file loaded under another path is adjusted as if the source had changed (run). C75_exact says exactly what is hashed."
  },
  {
   "property": "C76",
   "status": "partial",
   "theorems": [
    "Verif.Pipeline.C76_archive",
    "Verif.Pipeline.C76_torn_archive",
    "Verif.Pipeline.C76_diff",
    "Verif.Pipeline.C76_lawful",
    "Verif.Pipeline.C76_end_to_end_partial",
    "Verif.Pipeline.C76_saves",
    "Verif.Pipeline.C76_archives",
    "Verif.Pipeline.C76_sample",
    "Verif.Pipeline.C76_run",
    "Verif.Pipeline.C76_adjust"
   ],
   "note": "Over all runs, from bytes to bytes. Missing is what C72, C73 and C40 exclude (moves, changed enums, undefiable lists of the root, spoiled archives). Assumed of libraries: compression can be undone, hashes of the versions that occur differ."
  },
  {
   "property": "C77",
   "status": "partial",
   "theorems": [
    "Verif.Named.C77_fits",
    "Verif.Pipeline.C77_file",
    "Verif.Named.C77_negation_next"
   ],
   "note": "Proved for all bytes: names, types, null and undefined, presence of lists and distinct ids of whatever is loaded; assumed is only that numbers and lengths of the result fit the memory. The part about next ids is false: they are taken from the file (C77_negation_next gives a file of nine bytes after which an insertion frees memory that is still used)."
  },
  {
   "property": "C78",
   "status": "partial",
   "theorems": [
    "Verif.Pipeline.C78_sessions_partial",
    "Verif.Pipeline.C78_save_partial",
    "Verif.Pipeline.C78_linear",
    "Verif.Pipeline.C78_save_stuck",
    "Verif.Pipeline.C78_memory",
    "Verif.Pipeline.C78_sessions_sample",
    "Verif.Pipeline.C78_history_partial",
    "Verif.Pipeline.C78_go_on",
    "Verif.Pipeline.C78_run",
    "Verif.Pipeline.C78_next_id_lost",
    "Verif.Pipeline.C78_negation"
   ],
   "note": "Proved for every usable source, all options and every sequence of creating, copying, editing, saving, loading, interrupting and restarting, with any number of objects in memory (C78_sessions_partial, C78_memory), and that objects in memory can be saved exactly if the file they continue is not stuck (C78_save_partial, C78_save_stuck; C78_linear: none is without derived files). Assumed of a save is only that the diff can express the change between the two objects compared (Fine: next ids that are lost, and sizes); files that C29 finds lost are errors. False without it: C78_negation saves the object of a session and loads another one. The cache is not in this model."
  },
  {
   "property": "C79",
   "status": "partial",
   "theorems": [
    "Verif.Named.C79_session_partial",
    "Verif.Named.C79_loaded_partial",
    "Verif.Named.C79_of_session",
    "Verif.Named.C79_api_move",
    "Verif.Named.C79_api_root_move",
    "Verif.Named.C79_sample",
    "Verif.Named.C79_negation_exact",
    "Verif.Pipeline.C79_history_partial",
    "Verif.Pipeline.C79_memory",
    "Verif.Pipeline.C79_save_partial",
    "Verif.Pipeline.C79_linear",
    "Verif.Pipeline.C79_save_stuck",
    "Verif.Pipeline.C79_of_sessions",
    "Verif.Pipeline.C79_history_sample"
   ],
   "note": "For every object that fits its definition and every session with assignments, insertions, removals and moves, the diff is written and applies, and gives an object that fits and is the one after but for the order of items, next ids and signs of zeros (`LooseRoot`). `C79_negation_exact`: order and next ids are indeed lost. Missing: undefiable lists of the root, definitions with unreadable diffs (C13_exact_definitions), changed enums (C73). Histories: `C79_history_partial` says of every run of many objects in memory that are created, loaded, copied, changed by such sessions and saved, with saves that fail or are interrupted, that every file that was written and is not one of the files of C29 (`Lost`) is loaded as what was saved, but for the same things; `C79_save_partial` that saving works unless the file to continue is stuck (C50), when it fails (`C79_save_stuck`). Missing there: diffs of 2^60 bytes and more."
  },
  {
   "property": "C80",
   "status": "partial",
   "theorems": [
    "Verif.LinkedMap.C80_list_mut",
    "Verif.LinkedMap.C80_list_mut_exact",
    "Verif.LinkedMap.C80_negation_ids",
    "Verif.Pipeline.C80_history_partial",
    "Verif.Pipeline.C80_negation_history",
    "Verif.Pipeline.C80_sample"
   ],
   "note": "False: the copy of an empty list starts again at id 0. `C80_list_mut_exact`: sharing is observed if and only if the list is empty and has given out an id. `C80_negation_history`: an item is removed, the object saved, two items inserted (one gets the removed item's id) and saved; a new process loads the new item with the value of the removed one. `C80_history_partial`: if at each save what is set in the items of the object that it is compared with is set in the items with the same ids, every file is loaded as what was saved, but for order, next ids and signs of zeros, with copies on write at any time."
  },
  {
   "property": "C81",
   "status": "partial",
   "theorems": [
    "Verif.Pipeline.C81_history_partial",
    "Verif.Pipeline.C81_history_any",
    "Verif.Pipeline.C81_memory",
    "Verif.Pipeline.C81_save_partial",
    "Verif.Pipeline.C81_save_any_partial",
    "Verif.Pipeline.C81_linear",
    "Verif.Pipeline.C81_save_stuck",
    "Verif.Pipeline.C81_sample"
   ],
   "note": "For every run of objects that are created, loaded, copied, edited by sessions (with moves) and saved, with the cache of `dochy_cache.rs` and with any sharing in memory at every save, every file that was written and is not lost (C29) is loaded, with the cache and without, as an object that fits and is the saved one but for order, next ids and signs of zeros; torn and lost files are errors. `C81_history_any`: the same for any edits that keep objects fitting, if at each save what is set stays set in items with the same id. `C81_memory`: what is in the cache is a version of the file it is kept for. `C81_save_partial`: saving works unless the file to continue is stuck (C50), when it fails (`C81_save_stuck`). `C81_sample`: with and without the cache the order differs. Missing: copies on write of emptied lists (false, C80), changed enums (C73), undefiable lists of the root, definitions with unreadable diffs (C13_exact_definitions), diffs of 2^60 bytes and more."
  },
  {
   "property": "C82",
   "status": "proved",
   "theorems": [
    "Verif.Float.C82_to_float",
    "Verif.Float.C82_to_int",
    "Verif.Float.C82_equality"
   ],
   "note": "The casts and the comparison of the model (defined on bits) are shown to be those of a specification about numbers (Spec/Float.lean): nearest with ties to even among all floats of the format, cut towards zero with saturation, equality of values. All integers up to 2^64 in magnitude, all bit patterns. `trunc`, `f64 as f32` and `f32 as f64` stay uninterpreted (C04 holds for any)."
  },
  {
   "property": "C83",
   "status": "proved",
   "theorems": [
    "Verif.Source.C83_value",
    "Verif.Source.C83_value_read",
    "Verif.Source.C83_value_refused",
    "Verif.Source.C83_load",
    "Verif.Source.C83_no_error",
    "Verif.Source.C83_exact",
    "Verif.Source.C83_content",
    "Verif.Source.C83_object"
   ],
   "note": "The language is an inductive specification (Spec/Grammar.lean) that does not mention the loader. Names that are declared twice may make the loader panic (C59), hence the hypothesis of C83_exact. JSON text is parsed in C64; validation after loading is C22."
  },
  {
   "property": "C84",
   "status": "partial",
   "theorems": [
    "Verif.Float.C84_division",
    "Verif.Float.C84_comparison",
    "Verif.Float.C84_sound",
    "Verif.Float.C84_exact_partial",
    "Verif.Float.C84_shiftExact",
    "Verif.Float.C84_negation",
    "Verif.Float.C84_negation_sound"
   ],
   "note": "False for very large numbers (two witnesses). Proved: with sizes and counts below 2^53 the code goes to the parent phase only if the average is really larger otherwise; if moreover the whole size times the number of files of the parent is below 2^52, exactly then. The first witness has a product below 2^53. Sizes are natural numbers: an overflow of u64 in the sums, which needs 2^64 bytes, is not modelled."
  },
  {
   "property": "C85",
   "status": "partial",
   "theorems": [
    "Verif.Removal.C85_never_wrong",
    "Verif.Removal.C85_exact",
    "Verif.Removal.C85_old_partial",
    "Verif.Removal.C85_negation"
   ],
   "note": "Proved in full for removals of any files but the newest one: a load gives the saved object or an error, and succeeds exactly if all needed files are there (and the file is not one of the files of C29 whose parent the code loses). The last sentence is false with the default options: five saves, remove_old_files(1), a save and remove_old_files(1) leave two files that cannot be loaded (C85_negation). Proved for histories without cumulative files and for two phases. Objects and diffs are abstract, as in C29; tagged files are not covered."
  },
  {
   "property": "C86",
   "status": "partial",
   "theorems": [
    "Verif.Shared.C86_cache",
    "Verif.Shared.C86_runs",
    "Verif.Shared.C86_never_wrong",
    "Verif.Shared.C86_exact",
    "Verif.Shared.C86_negation"
   ],
   "note": "Proved for any number of processes and removals of any files but the newest one. False if the newest file is removed as well (remove_old_files with 0): the name is used again, and a process that still has the old file in its cache loads the old object and writes diffs against it, so that what it saves is loaded as something else (C86_negation). One operation is over before the next one begins. Objects and diffs are abstract, as in C29; that the written diff depends on the values only is assumed (see C36)."
  },
  {
   "property": "C87",
   "status": "partial",
   "theorems": [
    "Verif.Removal.C87_never_wrong",
    "Verif.Removal.C87_exact",
    "Verif.Removal.C87_old_partial",
    "Verif.Pipeline.C87_objects_partial",
    "Verif.Pipeline.C87_objects_old_partial",
    "Verif.Pipeline.C87_sample"
   ],
   "note": "Proved for bytes and functions whose diffs restore what was saved (C87_never_wrong, C87_exact), and for the objects of a usable source where what is saved can be expressed by a diff (Saveable, see C73 and C78_negation): exactly which listed files can be loaded, up to the order of maps. The files of C29 whose parent the code loses are errors. With remove_old_files every complete listed file can be loaded if the files are not cumulative or there are exactly two phases; false by default (C85_negation). Loading with one thread and without the cache; untagged files."
  },
  {
   "property": "C88",
   "status": "partial",
   "theorems": [
    "Verif.Phase.C88_size_limit_partial",
    "Verif.Phase.C88_negation",
    "Verif.Phase.C88_negation_options"
   ],
   "note": "Proved: whenever a further file is added to the last phase, the files already there are in total smaller than at least nth of the files the newest one depends on. The documented statement, which counts the added file too, is violated (C88_negation): the limit is looked at before the file is added, so the last file of a cumulative phase may have any size. For max_phase = 1 with update_phase_0 = false it is violated for the earlier files too (C88_negation_options)."
  },
  {
   "property": "C89",
   "status": "partial",
   "theorems": [
    "Verif.Overlap.C89_overlap_partial",
    "Verif.Overlap.C89_overlap_cumulative",
    "Verif.Overlap.C89_only_newer",
    "Verif.Overlap.C89_negation_overwritten",
    "Verif.Overlap.C89_negation_hidden",
    "Verif.Overlap.C89_negation_lost"
   ],
   "note": "False of the code, which protects the directory only within one process: two saves that continue the same file overwrite each other, and what was saved after the overwritten file is loaded as another object (C89_negation_overwritten); two saves that continue different files can get different names with the same control number and order, so that one of them disappears (C89_negation_hidden). Proved: as long as no save writes a control number and order that is there, every file is listed and loaded as saved, in full with the cumulative option; only files written between the listing and the writing of a save can be in its way. Without the cumulative option, a file whose parent the code loses (C29) may be loaded as something else (C89_negation_lost). A file is written at once (interruptions: C87), without removals and without the cache."
  },
  {
   "property": "C90",
   "status": "proved",
   "theorems": [
    "Verif.Export.C90_order",
    "Verif.Export.C90_text",
    "Verif.Export.C90_names",
    "Verif.Export.C90_shown"
   ],
   "note": "Shuffled relates objects that differ only in the order of their maps, at every level. RootWf says that a map has each name once, which holds of every HashMap. What is lost when the JSON is read again is in C68; constant lists have no value in the object and are not written."
  },
  {
   "property": "C91",
   "status": "partial",
   "theorems": [
    "Verif.Filesys.C91_succeeds",
    "Verif.Filesys.C91_others",
    "Verif.Filesys.C91_gone",
    "Verif.Filesys.C91_again_partial",
    "Verif.Filesys.C91_cut",
    "Verif.Filesys.C91_cut_gone",
    "Verif.Filesys.C91_negation_edit",
    "Verif.Filesys.C91_negation_cut"
   ],
   "note": "False in two cases, each with a witness: if the source is edited while a process runs, a removal lets the next save of the process make the folder again with the wrong archive (C91_negation_edit); a removal that stops in between can leave files that have lost their archive (C91_negation_cut). Otherwise it holds: C91_again_partial asks that the source is the one the process started with. The runs of C40, C53 and C54 contain removals of folders, whole and in part. The folders of a history directory are another matter (C86)."
  },
  {
   "property": "C92",
   "status": "partial",
   "theorems": [
    "Verif.History.C92_exact",
    "Verif.History.C92_plain",
    "Verif.History.C92_limit_partial",
    "Verif.History.C92_only",
    "Verif.History.C92_negation"
   ],
   "note": "C92_exact is the number of files for any options, C92_plain the bound of the manual for histories without a cumulative phase. The bound by limit_count (C92_limit_partial) is false for max_phase 1 without update_phase_0, where no limit ends the cumulative phase (C92_negation); it holds for all other options. As for C29, saves are untagged."
  },
  {
   "property": "C93",
   "status": "partial",
   "theorems": [
    "Verif.Source.C93_split_partial",
    "Verif.Source.C93_valid_partial",
    "Verif.Source.C93_negation_twice",
    "Verif.Source.C93_negation_value",
    "Verif.Source.C93_negation_empty"
   ],
   "note": "Proved for sources that declare each name once, without the validation (C93_split_partial) and with it (C93_valid_partial). If a name is declared twice, the source with one file panics and the split one may be loaded (C93_negation_twice), or both are loaded with different values (C93_negation_value). The empty root.json5 of the manual is refused; an empty object has to be written (C93_negation_empty)."
  },
  {
   "property": "C94",
   "status": "partial",
   "theorems": [
    "Verif.Core.C94_read",
    "Verif.Core.C94_list",
    "Verif.Core.C94_sources_partial",
    "Verif.Core.C94_loaded",
    "Verif.Core.C94_wrapper",
    "Verif.Core.C94_wrapper_set",
    "Verif.Core.C94_wrapper_new",
    "Verif.Core.C94_wrapper2_first",
    "Verif.Core.C94_wrapper2_between",
    "Verif.Core.C94_wrapper2_second",
    "Verif.Core.C94_steps_partial",
    "Verif.Core.C94_negation_removed",
    "Verif.Core.C94_negation_undefined",
    "Verif.Pipeline.C94_bytes_partial"
   ],
   "note": "C94_read is exact for all parameters of the root (C94_sources_partial from source files that declare each name once, after any edits; C94_bytes_partial for a file that was saved in any run and is loaded from its bytes by another version), the wrappers of the manual are proved correct. A version in between makes no difference (C94_steps_partial) except if it lacks the member, whose value is then lost (C94_negation_removed), or if only it lets the member be undefined: then undefined stays in a member that is declared not to be undefined, and validation accepts it (C94_negation_undefined)."
  },
  {
   "property": "C95",
   "status": "partial",
   "theorems": [
    "Verif.Core.C95_const",
    "Verif.Core.C95_discarded",
    "Verif.Core.C95_items",
    "Verif.Core.C95_undefined",
    "Verif.Core.C95_added",
    "Verif.Core.C95_wrapper",
    "Verif.Core.C95_wrapper_again",
    "Verif.Core.C95_loaded",
    "Verif.Core.C95_negation_again",
    "Verif.Core.C18_negation_nested"
   ],
   "note": "Proved for the lists of the root and their items. Lists inside of items are converted by the wrong definition (C18_negation_nested; C18_exact says what becomes of them). As members of items become undefined at every conversion, the wrapper of the manual may return another value after a conversion that changes nothing, if the old value is set in the new version (C95_negation_again)."
  }
 ]
}