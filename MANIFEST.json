{
 "claims": [
  {
   "property": "C01",
   "status": "proved",
   "theorems": [
    "Verif.Props.C01_to_records",
    "Verif.Props.C01_too_few_names",
    "Verif.Props.C01_not_a_mapping",
    "Verif.Props.C01_positions_distinct"
   ],
   "note": ""
  },
  {
   "property": "C02",
   "status": "proved",
   "theorems": [
    "Verif.Props.C02_unnest_lossless",
    "Verif.Props.C02_default_escape_loses"
   ],
   "note": "Proved for a one-character escape under the stated hypotheses; C02_default_escape_loses shows the loss with escape=''."
  },
  {
   "property": "C03",
   "status": "proved",
   "theorems": [
    "Verif.Props.C03_write_read",
    "Verif.Props.C03_write_succeeds",
    "Verif.Props.C03_read_creates_only_path"
   ],
   "note": ""
  },
  {
   "property": "C04",
   "status": "proved",
   "theorems": [
    "Verif.Props.C04_todict"
   ],
   "note": ""
  },
  {
   "property": "C05",
   "status": "proved",
   "theorems": [
    "Verif.Props.C05_dig_for_items",
    "Verif.Props.C05_projections"
   ],
   "note": ""
  },
  {
   "property": "C06",
   "status": "proved",
   "theorems": [
    "Verif.Props.C06_first_of_all"
   ],
   "note": ""
  },
  {
   "property": "C07",
   "status": "partial",
   "theorems": [
    "Verif.Props.C07_not_breadth_first",
    "Verif.Props.C07_shallowest_partial"
   ],
   "note": "False of the code (C07_not_breadth_first gives a witness); partial: first in level-before-sublevels order, so a match in an enclosing mapping always wins."
  },
  {
   "property": "C08",
   "status": "partial",
   "theorems": [
    "Verif.Props.C08_constants_partial",
    "Verif.Props.C08_item_raises"
   ],
   "note": "False for match='item' (C08_item_raises: TypeError on every non-empty mapping); partial covers key, value and callables."
  },
  {
   "property": "C09",
   "status": "proved",
   "theorems": [
    "Verif.Props.C09_result",
    "Verif.Props.C09_terminates",
    "Verif.Props.C09_diverges_without_depth_bound"
   ],
   "note": ""
  },
  {
   "property": "C10",
   "status": "proved",
   "theorems": [
    "Verif.Props.C10_rmerge_law"
   ],
   "note": ""
  },
  {
   "property": "C11",
   "status": "proved",
   "theorems": [
    "Verif.Props.C11_identities",
    "Verif.Props.C11_idempotent",
    "Verif.Props.C11_extends_right",
    "Verif.Props.C11_keeps_left",
    "Verif.Props.C11_not_associative"
   ],
   "note": ""
  },
  {
   "property": "C12",
   "status": "partial",
   "theorems": [
    "Verif.Props.C12_mtypes_not_honoured",
    "Verif.Props.C12_mtypes_top_level_partial"
   ],
   "note": "False of the code below the first level (C12_mtypes_not_honoured); partial: honoured at the top level, and everywhere for the default mtypes."
  },
  {
   "property": "C13",
   "status": "proved",
   "theorems": [
    "Verif.Props.C13_insert_after",
    "Verif.Props.C13_absent_prior",
    "Verif.Props.C13_present_after",
    "Verif.Props.C13_present_before"
   ],
   "note": ""
  },
  {
   "property": "C14",
   "status": "partial",
   "theorems": [
    "Verif.Props.C14_get_from_partial",
    "Verif.Props.C14_get_from_only",
    "Verif.Props.C14_non_string_key_escapes"
   ],
   "note": "False for keys that are not strings (C14_non_string_key_escapes: TypeError escapes); partial covers keys whose attribute lookup raises AttributeError."
  },
  {
   "property": "C15",
   "status": "proved",
   "theorems": [
    "Verif.Props.C15_separate_by",
    "Verif.Props.C15_raises"
   ],
   "note": ""
  },
  {
   "property": "C16",
   "status": "proved",
   "theorems": [
    "Verif.Props.C16_lookup",
    "Verif.Props.C16_counts"
   ],
   "note": ""
  },
  {
   "property": "C17",
   "status": "proved",
   "theorems": [
    "Verif.Props.C17_same_in_all_modes"
   ],
   "note": "Function modelled as deterministic; worker pickling and crashes are not modelled."
  },
  {
   "property": "C18",
   "status": "partial",
   "theorems": [
    "Verif.Props.C18_isolates_failures_partial",
    "Verif.Props.C18_raise_exc",
    "Verif.Props.C18_chunked_loses_results"
   ],
   "note": "False for chunked pools (C18_chunked_loses_results); partial covers in-process and unchunked pools, including raise_exc=True."
  },
  {
   "property": "C19",
   "status": "proved",
   "theorems": [
    "Verif.Props.C19_chunks",
    "Verif.Props.C19_map_uses_chunks"
   ],
   "note": ""
  },
  {
   "property": "C20",
   "status": "proved",
   "theorems": [
    "Verif.Props.C20_reindex",
    "Verif.Props.C20_enumerate"
   ],
   "note": ""
  },
  {
   "property": "C21",
   "status": "proved",
   "theorems": [
    "Verif.Props.C21_listify"
   ],
   "note": ""
  },
  {
   "property": "C22",
   "status": "proved",
   "theorems": [
    "Verif.Props.C22_are_in"
   ],
   "note": ""
  },
  {
   "property": "C23",
   "status": "proved",
   "theorems": [
    "Verif.Props.C23_intersection",
    "Verif.Props.C23_disjoint"
   ],
   "note": ""
  },
  {
   "property": "C24",
   "status": "proved",
   "theorems": [
    "Verif.Props.C24_optionalize"
   ],
   "note": ""
  },
  {
   "property": "C25",
   "status": "proved",
   "theorems": [
    "Verif.Props.C25_argstop",
    "Verif.Props.C25_argstop_negative"
   ],
   "note": ""
  },
  {
   "property": "C26",
   "status": "proved",
   "theorems": [
    "Verif.Props.C26_execute_threads",
    "Verif.Props.C26_plain_functions"
   ],
   "note": "Functions are arbitrary effectful actions on a world; the claim is for Compositions without sends (C29, C30 for those with)."
  },
  {
   "property": "C27",
   "status": "proved",
   "theorems": [
    "Verif.Props.C27_signal_in_first_open_slot",
    "Verif.Props.C27_no_gaps"
   ],
   "note": ""
  },
  {
   "property": "C28",
   "status": "proved",
   "theorems": [
    "Verif.Props.C28_inserts_override_baked",
    "Verif.Props.C28_no_inserts"
   ],
   "note": "Baked positional arguments and keywords of partials; inserts win."
  },
  {
   "property": "C29",
   "status": "proved",
   "theorems": [
    "Verif.Props.C29_later_step_same_run",
    "Verif.Props.C29_earlier_step_next_run"
   ],
   "note": ""
  },
  {
   "property": "C30",
   "status": "proved",
   "theorems": [
    "Verif.Props.C30_captures",
    "Verif.Props.C30_success"
   ],
   "note": "Any number of executions after add_captures, any failure point; the steps, sends and tracker may not write to the fresh capture lists themselves."
  },
  {
   "property": "C31",
   "status": "proved",
   "theorems": [
    "Verif.Props.C31_stops_at_failing_step",
    "Verif.Props.C31_failure_is_reported",
    "Verif.Props.C31_log_of_a_run"
   ],
   "note": "StopIteration from a step appears as RuntimeError (PEP 479), as the generator does."
  },
  {
   "property": "C32",
   "status": "proved",
   "theorems": [
    "Verif.Props.C32_unnamed_steps_append",
    "Verif.Props.C32_named_step_replaced"
   ],
   "note": "Any number of unnamed additions; with an explicitly named integer step the next unnamed one can replace it (C32_named_step_replaced)."
  },
  {
   "property": "C33",
   "status": "partial",
   "theorems": [
    "Verif.Props.C33_attached_partial",
    "Verif.Props.C33_full_false",
    "Verif.Props.C33_reindex_partial"
   ],
   "note": "False of the code as stated (C33_full_false: an insert for a renamed step is lost). Partial: C33_attached_partial, any sends and inserts, if what is kept for each step is the same under its name and under the number of its place, and sends to steps reach the same place under both; C33_reindex_partial, no sends and no inserts, or names already 0..n-1."
  },
  {
   "property": "C34",
   "status": "proved",
   "theorems": [
    "Verif.Props.C34_memorize_remember",
    "Verif.Props.C34_refuses",
    "Verif.Props.C34_bad_value"
   ],
   "note": ""
  },
  {
   "property": "C35",
   "status": "proved",
   "theorems": [
    "Verif.Props.C35_open_block",
    "Verif.Props.C35_no_create"
   ],
   "note": ""
  },
  {
   "property": "C36",
   "status": "partial",
   "theorems": [
    "Verif.Props.C36_delete_block_partial",
    "Verif.Props.C36_missing_ok_ignored",
    "Verif.Props.C36_full_false"
   ],
   "note": ""
  },
  {
   "property": "C37",
   "status": "proved",
   "theorems": [
    "Verif.Props.C37_sticky_read",
    "Verif.Props.C37_restick",
    "Verif.Props.C37_nothing_there"
   ],
   "note": ""
  },
  {
   "property": "C38",
   "status": "proved",
   "theorems": [
    "Verif.Props.C38_tag_index"
   ],
   "note": "Histories of non-overlapping calls; keys nonempty and not bytes, SHA injective on the keys in play, fewer than 256^5 calls."
  },
  {
   "property": "C39",
   "status": "proved",
   "theorems": [
    "Verif.Props.C39_notepad_is_a_dictionary"
   ],
   "note": "Histories of non-overlapping calls; keys in play do not begin with \"index\"; values the codec brings back; absent key: get raises FileNotFoundError (see C40)."
  },
  {
   "property": "C40",
   "status": "partial",
   "theorems": [
    "Verif.Props.C40_absent_raises",
    "Verif.Props.C40_get_default_partial",
    "Verif.Props.C40_full_false"
   ],
   "note": "False of the code: C40_absent_raises (FileNotFoundError whatever the default). Partial: live keys, and stored None."
  },
  {
   "property": "C41",
   "status": "partial",
   "theorems": [
    "Verif.Props.C41_prefixes_apart_partial",
    "Verif.Props.C41_full_false"
   ],
   "note": "False of the code: C41_full_false (prefixes 'a' and 'a_b' share the block 'a_b_x'). Partial: prefixes none of which, with its underscore, begins another; covers all distinct underscore-free prefixes."
  },
  {
   "property": "C42",
   "status": "proved",
   "theorems": [
    "Verif.Props.C42_close_releases"
   ],
   "note": ""
  },
  {
   "property": "C43",
   "status": "partial",
   "theorems": [
    "Verif.Props.C43_failed_set_partial",
    "Verif.Props.C43_full_false"
   ],
   "note": "False of the code: C43_full_false (key listed after a failed set). Partial: values all as before, listing as before or with the key appended."
  },
  {
   "property": "C44",
   "status": "partial",
   "theorems": [
    "Verif.Props.C44_reserved_partial",
    "Verif.Props.C44_no_loss_partial",
    "Verif.Props.C44_damage",
    "Verif.Props.C44_full_false"
   ],
   "note": "False of the code: C44_full_false (del np['index_key_0'] hides a live key). Partial: keys not beginning with 'index'; reserved keys refused without change."
  },
  {
   "property": "C45",
   "status": "partial",
   "theorems": [
    "Verif.Props.C45_empty_key",
    "Verif.Props.C45_bytes_then_remove",
    "Verif.Props.C45_full_false",
    "Verif.Props.C45_accepts_partial"
   ],
   "note": "False of the code for the empty key and bytes keys (C45_empty_key, C45_bytes_then_remove, C45_full_false). Partial: every nonempty non-bytes key."
  },
  {
   "property": "C46",
   "status": "proved",
   "theorems": [
    "Verif.Props.C46_crash_in_add"
   ],
   "note": ""
  },
  {
   "property": "C47",
   "status": "proved",
   "theorems": [
    "Verif.Props.C47_crash_in_remove"
   ],
   "note": ""
  },
  {
   "property": "C48",
   "status": "partial",
   "theorems": [
    "Verif.Props.C48_crash_in_set_partial",
    "Verif.Props.C48_crash_reads",
    "Verif.Props.C48_full_false"
   ],
   "note": "Second half false of the code: C48_full_false (key missing, or decoded from zeros). Partial: other keys always read as before; the key reads old, new, missing or zeros."
  },
  {
   "property": "C49",
   "status": "partial",
   "theorems": [
    "Verif.Props.C49_mutual_exclusion_partial",
    "Verif.Props.C49_full_false",
    "Verif.Props.C49_stale_count"
   ],
   "note": "False of the code: C49_full_false (gap between marker and lock block), C49_stale_count. Partial: schedules in which no other process enters its doorway or leaves while a process is in its doorway."
  },
  {
   "property": "C50",
   "status": "proved",
   "theorems": [
    "Verif.Props.C50_slots"
   ],
   "note": ""
  },
  {
   "property": "C51",
   "status": "proved",
   "theorems": [
    "Verif.Props.C51_no_deadlock"
   ],
   "note": ""
  },
  {
   "property": "C52",
   "status": "partial",
   "theorems": [
    "Verif.Props.C52_dead_holder_blocks_partial",
    "Verif.Props.C52_quiet_partial",
    "Verif.Props.C52_full_false"
   ],
   "note": "As stated false of the code (C52_full_false: a later count makes the newcomer skip the dead lock block). Partials: any schedule for a process already behind the dead slot; quiet schedules in general."
  },
  {
   "property": "C53",
   "status": "partial",
   "theorems": [
    "Verif.Props.C53_adds_partial",
    "Verif.Props.C53_full_false"
   ],
   "note": "False of the code: C53_full_false (two interleaved adds, one key lost), proved on the operation-level programs. Partial: any number of clients, schedules that disturb no doorway (pending operations), via a simulation into the transition system and rely-guarantee for add."
  },
  {
   "property": "C54",
   "status": "partial",
   "theorems": [
    "Verif.Props.C54_index_del_hangs",
    "Verif.Props.C54_grid_del_hangs",
    "Verif.Props.C54_del_without_lock_partial",
    "Verif.Props.C54_full_false"
   ],
   "note": "False of the code (C54_full_false): with the default lock the same lock is entered twice, so the call never returns (every fuel), the array is lost while its key stays listed, and later adds hang too. Partial: true with no_lockout=True."
  },
  {
   "property": "C55",
   "status": "proved",
   "theorems": [
    "Verif.Props.C55_gridpaper_is_a_dictionary"
   ],
   "note": "Arrays of at least one dimension and one byte; histories contain deletions when no client has a lock (C54)."
  },
  {
   "property": "C56",
   "status": "partial",
   "theorems": [
    "Verif.Props.C56_new_key_refused",
    "Verif.Props.C56_existing_overwritten",
    "Verif.Props.C56_exists_ok_stores_partial",
    "Verif.Props.C56_full_false"
   ],
   "note": "False of the code (C56_full_false): exists_ok is passed as create, so a new key raises FileNotFoundError and an existing one is overwritten. Partial: exists_ok=True stores."
  },
  {
   "property": "C57",
   "status": "proved",
   "theorems": [
    "Verif.Props.C57_flags"
   ],
   "note": "Made by the constructor or from_function, then any history (load, compile, define, unload, call, attribute assignment); compiler and functions abstract."
  },
  {
   "property": "C58",
   "status": "proved",
   "theorems": [
    "Verif.Props.C58_call"
   ],
   "note": ""
  },
  {
   "property": "C59",
   "status": "partial",
   "theorems": [
    "Verif.Props.C59_load_twice",
    "Verif.Props.C59_unready",
    "Verif.Props.C59_load_on_call",
    "Verif.Props.C59_load",
    "Verif.Props.C59_reload",
    "Verif.Props.C59_reload_not_compiling",
    "Verif.Props.C59_code_without_function",
    "Verif.Props.C59_unload_partial",
    "Verif.Props.C59_unload_unloaded_raises",
    "Verif.Props.C59_unload_full_false"
   ],
   "note": "unload as stated is false (C59_unload_full_false): a Dynamic that never had a function raises AttributeError; the rest holds. Also proved: reload=True replaces code and function (C59_reload), keeps the old function when the source no longer compiles (C59_reload_not_compiling), and a Dynamic with code but no function can be neither loaded nor called without it (C59_code_without_function)."
  },
  {
   "property": "C60",
   "status": "partial",
   "theorems": [
    "Verif.Props.C60_never_reloads",
    "Verif.Props.C60_full_false",
    "Verif.Props.C60_from_function_partial"
   ],
   "note": "False of the code (C60_full_false, C60_never_reloads for every function). Partial: works until unloaded, or when source and globals are passed again."
  },
  {
   "property": "C61",
   "status": "proved",
   "theorems": [
    "Verif.Props.C61_records"
   ],
   "note": ""
  },
  {
   "property": "C62",
   "status": "partial",
   "theorems": [
    "Verif.Props.C62_full_false",
    "Verif.Props.C62_paused",
    "Verif.Props.C62_dump_appends",
    "Verif.Props.C62_file_partial"
   ],
   "note": "False of the code when metadata is not serialisable (C62_full_false). Partial: histories in which no dump raises."
  },
  {
   "property": "C63",
   "status": "proved",
   "theorems": [
    "Verif.Props.C63_trim_label",
    "Verif.Props.C63_cases"
   ],
   "note": ""
  },
  {
   "property": "C64",
   "status": "proved",
   "theorems": [
    "Verif.Props.C64_stable",
    "Verif.Props.C64_scrape_uses_loaded",
    "Verif.Props.C64_read_once"
   ],
   "note": "Per set of arguments as given (functools.cache keys)."
  },
  {
   "property": "C65",
   "status": "proved",
   "theorems": [
    "Verif.Props.C65_scrape",
    "Verif.Props.C65_scrape_patterns",
    "Verif.Props.C65_returns",
    "Verif.Props.C65_bulk",
    "Verif.Props.C65_bulk_raises"
   ],
   "note": "Exceptions of literal_eval other than ValueError and SyntaxError (e.g. TypeError for a dict literal with a list key) are not caught: C65_scrape."
  },
  {
   "property": "C66",
   "status": "proved",
   "theorems": [
    "Verif.Props.C66_int_downcast",
    "Verif.Props.C66_empty"
   ],
   "note": "Integers are mathematical; the cast is modulo 2^bits. Empty arrays raise ValueError (C66_empty)."
  },
  {
   "property": "C67",
   "status": "partial",
   "theorems": [
    "Verif.Props.C67_first_fit_partial",
    "Verif.Props.C67_within_tolerance",
    "Verif.Props.C67_zeros",
    "Verif.Props.C67_nothing_finite",
    "Verif.Props.C67_zero_with_nonfinite",
    "Verif.Props.C67_nillable_raises",
    "Verif.Props.C67_full_false"
   ],
   "note": "numpy casts, bounds and errors are abstract. False in general (C67_full_false): a cast within bounds may raise (RuntimeWarning as error, e.g. [-1., 2.**63]); zeros with NaN come back without the dict (C67_zero_with_nonfinite); nillable integers are never produced (C67_nillable_raises)."
  },
  {
   "property": "C68",
   "status": "partial",
   "theorems": [
    "Verif.Props.C68_full_false",
    "Verif.Props.C68_drop_partial"
   ],
   "note": "False (C68_full_false): a column is compared with itself, so unequal duplicates are dropped silently and equal ones with nulls raise. C68_drop_partial says exactly what happens."
  },
  {
   "property": "C69",
   "status": "partial",
   "theorems": [
    "Verif.Props.C69_full_false",
    "Verif.Props.C69_constants_partial",
    "Verif.Props.C69_no_rows",
    "Verif.Props.C69_as_frame",
    "Verif.Props.C69_columns_dict"
   ],
   "note": "False in general (C69_full_false): the dict has the first row, which may be null in a constant column. Proved: classification, partition, and the value when the first cell is not null. how=\"columns\" gives a dict by column (C69_columns_dict)."
  },
  {
   "property": "C70",
   "status": "proved",
   "theorems": [
    "Verif.Props.C70_split_on",
    "Verif.Props.C70_unalignable"
   ],
   "note": "Boolean predicates; alignment by label modelled for distinct labels."
  },
  {
   "property": "C71",
   "status": "proved",
   "theorems": [
    "Verif.Props.C71_read_between",
    "Verif.Props.C71_not_none",
    "Verif.Props.C71_null_group"
   ],
   "note": "Values and bounds in one linear order; the columns argument is ignored by the code; a group of nulls raises TypeError (C71_null_group)."
  },
  {
   "property": "C72",
   "status": "partial",
   "theorems": [
    "Verif.Props.C72_sort_chunked_partial",
    "Verif.Props.C72_one_chunk",
    "Verif.Props.C72_exact",
    "Verif.Props.C72_full_false",
    "Verif.Props.C72_descending_false"
   ],
   "note": "False when max + 1 rounds to max (values from 2^53: C72_full_false) and for descending order (C72_descending_false); proved for any monotone grid otherwise, and for exact arithmetic (C72_exact)."
  },
  {
   "property": "C73",
   "status": "proved",
   "theorems": [
    "Verif.Props.C73_todict_changes_self",
    "Verif.Props.C73_todict_keeps_contents"
   ],
   "note": "C73_todict_changes_self shows the documented modification on an example."
  },
  {
   "property": "C74",
   "status": "partial",
   "theorems": [
    "Verif.Props.C74_reuse_unchunked_partial",
    "Verif.Props.C74_chunked_flag_sticks"
   ],
   "note": "False after a chunked map (C74_chunked_flag_sticks); partial: holds after unchunked maps."
  },
  {
   "property": "C75",
   "status": "partial",
   "theorems": [
    "Verif.Props.C75_generator_records_lost",
    "Verif.Props.C75_list_records_partial"
   ],
   "note": "False for one-shot iterators (C75_generator_records_lost: always empty); partial covers lists."
  },
  {
   "property": "C76",
   "status": "proved",
   "theorems": [
    "Verif.Props.C76_map_into_pool",
    "Verif.Props.C76_filter_exc_raising"
   ],
   "note": ""
  },
  {
   "property": "C77",
   "status": "proved",
   "theorems": [
    "Verif.Props.C77_filtern",
    "Verif.Props.C77_naturals",
    "Verif.Props.C77_catch_interaction"
   ],
   "note": ""
  },
  {
   "property": "C78",
   "status": "proved",
   "theorems": [
    "Verif.Props.C78_phantom_key",
    "Verif.Props.C78_close_raises"
   ],
   "note": "General for listing and del; the failing close is shown on a concrete notepad (C78_close_raises)."
  },
  {
   "property": "C79",
   "status": "partial",
   "theorems": [
    "Verif.Props.C79_source_partial",
    "Verif.Props.C79_defaults_lost",
    "Verif.Props.C79_arguments",
    "Verif.Props.C79_first_code_object",
    "Verif.Props.C79_no_function",
    "Verif.Props.C79_full_false"
   ],
   "note": "False (C79_full_false): default values are lost, so any call relying on one raises TypeError (C79_defaults_lost), and it is the first code object of the source that runs, e.g. a lambda in a default value or a decorator (C79_first_code_object). Proved for calls supplying every parameter when the function's is the first code object. A source without function: C79_no_function."
  },
  {
   "property": "C80",
   "status": "proved",
   "theorems": [
    "Verif.Props.C80_timeout",
    "Verif.Props.C80_available",
    "Verif.Props.C80_many"
   ],
   "note": "C80_timeout and C80_available on the programs run by one process, C80_many on the transition system with arbitrary timeouts."
  },
  {
   "property": "C81",
   "status": "partial",
   "theorems": [
    "Verif.Props.C81_fresh_partial",
    "Verif.Props.C81_reused",
    "Verif.Props.C81_full_false"
   ],
   "note": "False (C81_full_false): spins is never reset, so the waits of earlier acquisitions count (C81_reused gives the exact number). Proved for a lock object that has not waited yet."
  },
  {
   "property": "C82",
   "status": "partial",
   "theorems": [
    "Verif.Props.C82_exclusion_partial",
    "Verif.Props.C82_full_false"
   ],
   "note": "False (C82_full_false): a timeout in the middle of the line frees a slot below a waiting one; the waiter sets no floor, a newcomer takes the free slot, looks only below it, and both are inside. Proved when only the last in line gives up."
  },
  {
   "property": "C83",
   "status": "partial",
   "theorems": [
    "Verif.Props.C83_linearizable_partial",
    "Verif.Props.C83_full_false"
   ],
   "note": "Partial: for schedules in which no process makes a marker or lock block or uses the count block while another is between choosing its slot and making its lock block (the gap of C49). The full statement is refuted: both processes are told position 0. A client whose lock count overflows ends there."
  },
  {
   "property": "C84",
   "status": "proved",
   "theorems": [
    "Verif.Props.C84_metaindex_is_an_ordered_dictionary"
   ],
   "note": "Removals are for clients made with no_lockout=True; with the default lock they never return (C54). Metadata must encode to at least one byte and decode back. Fewer than 2^40 calls."
  },
  {
   "property": "C85",
   "status": "proved",
   "theorems": [
    "Verif.Props.C85_sticky_is_a_cell"
   ],
   "note": ""
  },
  {
   "property": "C86",
   "status": "partial",
   "theorems": [
    "Verif.Props.C86_crash_in_grid_set_partial",
    "Verif.Props.C86_wrong_arrays",
    "Verif.Props.C86_full_false"
   ],
   "note": "Other keys: proved. The key itself: false of the code. Between the creation of a new key's hash block (eight zero bytes, i.e. position 0) and the write to it, gp[newkey] silently gives the array of the first listed key; while overwriting, the old shape is read with a mixture of old and new bytes, then the key is missing, then its metadata cannot be decoded."
  },
  {
   "property": "C87",
   "status": "partial",
   "theorems": [
    "Verif.Props.C87_crash_in_grid_del_partial",
    "Verif.Props.C87_last_key",
    "Verif.Props.C87_full_false"
   ],
   "note": "Proved for the deleted key and for every other key but the last one listed. For the last listed key it is false of the code: its position is changed before its metadata is moved, so in between a key nobody deleted raises KeyError, and then its metadata is a block of zeros."
  },
  {
   "property": "C88",
   "status": "proved",
   "theorems": [
    "Verif.Props.C88_list_collects",
    "Verif.Props.C88_list_replaces",
    "Verif.Props.C88_list_out_of_range",
    "Verif.Props.C88_dict_keeps_last"
   ],
   "note": "The sending step's send is taken to be its last one: a later send that fails would keep the value in the list without the step's output being yielded."
  },
  {
   "property": "C89",
   "status": "proved",
   "theorems": [
    "Verif.Props.C89_inline_processor",
    "Verif.Props.C89_row_by_row"
   ],
   "note": "The processor is a function from tables to tables that raises nothing."
  },
  {
   "property": "C90",
   "status": "proved",
   "theorems": [
    "Verif.Props.C90_own_keys"
   ],
   "note": "Keys do not begin with \"index\", their block names are accepted by the system, and the codec gives back what it encodes in at least one byte. What keys() gives, and when set and del raise because of the index, is left open."
  },
  {
   "property": "C91",
   "status": "proved",
   "theorems": [
    "Verif.Props.C91_no_mixture",
    "Verif.Props.C91_whole_values",
    "Verif.Props.C91_reader_may_miss",
    "Verif.Props.C91_reader_may_miss_whole"
   ],
   "note": "Bytes are copied in order; the creation of a block (with its size, filled with zeros) is one operation. C91_reader_may_miss shows the gaps on concrete schedules."
  },
  {
   "property": "C92",
   "status": "partial",
   "theorems": [
    "Verif.Props.C92_rows_mixed_up",
    "Verif.Props.C92_full_false",
    "Verif.Props.C92_downcast_df_partial",
    "Verif.Props.C92_labels_lost",
    "Verif.Props.C92_by_label",
    "Verif.Props.C92_repeated_label",
    "Verif.Props.C92_bare_array"
   ],
   "note": "pandas.concat(axis=1) is written down in the model: equal labels are kept, otherwise rows are joined by label in order of appearance, and repeated labels raise."
  },
  {
   "property": "C93",
   "status": "partial",
   "theorems": [
    "Verif.Props.C93_first",
    "Verif.Props.C93_full_false",
    "Verif.Props.C93_any_partial"
   ],
   "note": "pivot_table is written down as grouping by label, sorted, without null labels. MultiIndex labels and a Series named like its index are not modelled."
  },
  {
   "property": "C94",
   "status": "partial",
   "theorems": [
    "Verif.Props.C94_typed",
    "Verif.Props.C94_full_false",
    "Verif.Props.C94_numeric_partial",
    "Verif.Props.C94_series_disagrees",
    "Verif.Props.C94_repeated_names"
   ],
   "note": "The regular expression is modelled for plain type names; df[names] gives for each name every column of that name."
  },
  {
   "property": "C95",
   "status": "partial",
   "theorems": [
    "Verif.Props.C95_junction",
    "Verif.Props.C95_unique_partial",
    "Verif.Props.C95_full_false"
   ],
   "note": "value_counts is written down as: complete rows, once each, in some order. Values that are equal are the same value."
  },
  {
   "property": "C96",
   "status": "proved",
   "theorems": [
    "Verif.Props.C96_dupe"
   ],
   "note": "dtypes are not modelled (`.values` makes one dtype of all columns)."
  },
  {
   "property": "C97",
   "status": "partial",
   "theorems": [
    "Verif.Props.C97_errors_reported",
    "Verif.Props.C97_lossless",
    "Verif.Props.C97_cast_nearest",
    "Verif.Props.C97_smallest_partial",
    "Verif.Props.C97_smallest_full_false"
   ],
   "note": "Finite float64 numbers as rationals; casts truncate or round to nearest even. How bounds are compared is left open. Arrays of float32 and float16 are not modelled."
  },
  {
   "property": "C98",
   "status": "partial",
   "theorems": [
    "Verif.Props.C98_alone",
    "Verif.Props.C98_intact",
    "Verif.Props.C98_serial_partial",
    "Verif.Props.C98_full_false",
    "Verif.Props.C98_overlap_spoils",
    "Verif.Props.C98_clear_loses"
   ],
   "note": "Check, open, seek and raw writes are steps; files are inodes. C98_alone shows that without interference this is the one-step dump of C62."
  },
  {
   "property": "C99",
   "status": "partial",
   "theorems": [
    "Verif.Props.C99_get_now",
    "Verif.Props.C99_copy_of_get",
    "Verif.Props.C99_get_is_the_block",
    "Verif.Props.C99_shows_current",
    "Verif.Props.C99_write_reaches_all",
    "Verif.Props.C99_frozen_when_removed",
    "Verif.Props.C99_stays_partial",
    "Verif.Props.C99_full_false"
   ],
   "note": "A view is a handle on a segment with type and shape. Non-overlapping calls; deletions without lock (C54). Writes through a view replace all its bytes."
  },
  {
   "property": "C100",
   "status": "partial",
   "theorems": [
    "Verif.Props.C100_encodes_iff",
    "Verif.Props.C100_errors",
    "Verif.Props.C100_ascii",
    "Verif.Props.C100_comes_back",
    "Verif.Props.C100_same_iff",
    "Verif.Props.C100_settles",
    "Verif.Props.C100_kept_by_notepads",
    "Verif.Props.C100_stable_partial",
    "Verif.Props.C100_followed",
    "Verif.Props.C100_full_false"
   ],
   "note": "The text of a finite float is abstract: any text of the shape float.__repr__ gives which reads back as the float. CPython's json encoder and decoder are modelled from their source; decoding of bytes that are not ASCII is left out, as the encoder makes none. Recursion limits are not modelled."
  },
  {
   "property": "C101",
   "status": "proved",
   "theorems": [
    "Verif.Props.C101_metadata_come_back",
    "Verif.Props.C101_arrays_survive",
    "Verif.Props.C101_gridpaper_with_json"
   ],
   "note": "C55 without its assumption on the codec. Array data and dtype are abstract. Conditions on keys and locks as in C55."
  },
  {
   "property": "C102",
   "status": "partial",
   "theorems": [
    "Verif.Props.C102_file_is_json_partial",
    "Verif.Props.C102_none_raises",
    "Verif.Props.C102_spoiled_for_good",
    "Verif.Props.C102_same",
    "Verif.Props.C102_full_false"
   ],
   "note": "Trackers are used one after the other (overlapping dumps are C98). Values are read when dumped: a tracked list that the caller changes later is not modelled. Floats as in C100."
  },
  {
   "property": "C103",
   "status": "partial",
   "theorems": [
    "Verif.Props.C103_encodes_iff",
    "Verif.Props.C103_errors",
    "Verif.Props.C103_same_partial",
    "Verif.Props.C103_nan_raises",
    "Verif.Props.C103_strings_evaluated",
    "Verif.Props.C103_words_raise",
    "Verif.Props.C103_kept_by_notepads",
    "Verif.Props.C103_unhashable",
    "Verif.Props.C103_full_false"
   ],
   "note": "Modelled after CPython 3.11: `repr`, the part of the grammar `repr` writes, `ast.literal_eval`, UTF-8. Trusted: `repr` of a finite float is a numeral with a fraction or an exponent that reads back as the float; printable characters are code points other than surrogates. What `literal_eval` does with other texts is abstract. A set's order after decoding is that of the text."
  },
  {
   "property": "C104",
   "status": "partial",
   "theorems": [
    "Verif.Props.C104_block_or_none",
    "Verif.Props.C104_no_block",
    "Verif.Props.C104_numbers_partial",
    "Verif.Props.C104_one_number",
    "Verif.Props.C104_bad_numeral",
    "Verif.Props.C104_full_false"
   ],
   "note": "The regular expressions are modelled by a backtracking matcher. The full claim (always the tuple) is false: one number gives no tuple."
  },
  {
   "property": "C105",
   "status": "proved",
   "theorems": [
    "Verif.Props.C105_literals",
    "Verif.Props.C105_nan",
    "Verif.Props.C105_words",
    "Verif.Props.C105_none_ambiguous"
   ],
   "note": "`literal_eval` as in C103; `re.search` is abstract. A group that is neither the text of a value as `repr` writes it nor a word is not covered."
  },
  {
   "property": "C106",
   "status": "partial",
   "theorems": [
    "Verif.Props.C106_early_partial",
    "Verif.Props.C106_late",
    "Verif.Props.C106_forgotten",
    "Verif.Props.C106_full_false"
   ],
   "note": "The full claim is the docstring's (`blocks in use by that process`); it is false for blocks opened earlier."
  },
  {
   "property": "C107",
   "status": "partial",
   "theorems": [
    "Verif.Props.C107_one_tracker_partial",
    "Verif.Props.C107_reader_removes",
    "Verif.Props.C107_full_false"
   ],
   "note": "The full claim is false; this is what the docstring of memutilz.py:57-98 warns about."
  },
  {
   "property": "C108",
   "status": "partial",
   "theorems": [
    "Verif.Props.C108_no_leaks_partial",
    "Verif.Props.C108_colon_leaks",
    "Verif.Props.C108_full_false"
   ],
   "note": "The full claim (any name) is false by the witness with a colon."
  },
  {
   "property": "C109",
   "status": "partial",
   "theorems": [
    "Verif.Props.C109_deactivated",
    "Verif.Props.C109_ascii_partial",
    "Verif.Props.C109_nonascii",
    "Verif.Props.C109_full_false"
   ],
   "note": "CPython 3.11 encodes the tracker's message as ASCII. The full claim is false."
  },
  {
   "property": "C110",
   "status": "partial",
   "theorems": [
    "Verif.Props.C110_windows_partial",
    "Verif.Props.C110_others_raise",
    "Verif.Props.C110_full_false"
   ],
   "note": "The full claim is false: the replacement functions refer to `self`, which does not exist (memutilz.py:88, 94)."
  },
  {
   "property": "C111",
   "status": "partial",
   "theorems": [
    "Verif.Props.C111_result_partial",
    "Verif.Props.C111_size",
    "Verif.Props.C111_deadlock",
    "Verif.Props.C111_same",
    "Verif.Props.C111_full_false"
   ],
   "note": "The full claim is false by the deadlock: `proc.join()` comes before `here.recv()` (test_utils/core.py:85-86)."
  },
  {
   "property": "C112",
   "status": "partial",
   "theorems": [
    "Verif.Props.C112_hang",
    "Verif.Props.C112_answers_partial",
    "Verif.Props.C112_full_false"
   ],
   "note": "The full claim is false."
  },
  {
   "property": "C113",
   "status": "partial",
   "theorems": [
    "Verif.Props.C113_child_ends_partial",
    "Verif.Props.C113_child_stays",
    "Verif.Props.C113_full_false"
   ],
   "note": "The full claim is false."
  },
  {
   "property": "C114",
   "status": "partial",
   "theorems": [
    "Verif.Props.C114_entries",
    "Verif.Props.C114_error",
    "Verif.Props.C114_lookup_partial",
    "Verif.Props.C114_full_false"
   ],
   "note": "The full claim is false (`C114_full_false`); entries and errors are proved without the condition."
  },
  {
   "property": "C115",
   "status": "proved",
   "theorems": [
    "Verif.Props.C115_unpack",
    "Verif.Props.C115_names"
   ],
   "note": ""
  },
  {
   "property": "C116",
   "status": "partial",
   "theorems": [
    "Verif.Props.C116_column_partial",
    "Verif.Props.C116_full_false",
    "Verif.Props.C116_overwrites",
    "Verif.Props.C116_repeated_label",
    "Verif.Props.C116_repeated_error"
   ],
   "note": "The full claim is false: the argument is changed (`C116_full_false`, `C116_overwrites`, `C116_repeated_label`)."
  },
  {
   "property": "C117",
   "status": "partial",
   "theorems": [
    "Verif.Props.C117_brief_partial",
    "Verif.Props.C117_no_statistics",
    "Verif.Props.C117_full_false"
   ],
   "note": "The full claim is false: `record |= None` (mosaic.py:29)."
  },
  {
   "property": "C118",
   "status": "partial",
   "theorems": [
    "Verif.Props.C118_num_values_partial",
    "Verif.Props.C118_full_false"
   ],
   "note": "The full claim is false for columns with nulls."
  },
  {
   "property": "C119",
   "status": "partial",
   "theorems": [
    "Verif.Props.C119_extended_partial",
    "Verif.Props.C119_full_false",
    "Verif.Props.C119_twice"
   ],
   "note": "The full claim is false (`C119_full_false`, `C119_twice`)."
  },
  {
   "property": "C120",
   "status": "partial",
   "theorems": [
    "Verif.Props.C120_result",
    "Verif.Props.C120_bounds",
    "Verif.Props.C120_exact_partial",
    "Verif.Props.C120_errors",
    "Verif.Props.C120_maxdepth_zero",
    "Verif.Props.C120_default_keytypes",
    "Verif.Props.C120_crash",
    "Verif.Props.C120_crash_attribute",
    "Verif.Props.C120_fewer",
    "Verif.Props.C120_list_key"
   ],
   "note": "The full claim is false: repeated keys lose leaves (`C120_fewer`) or raise (`C120_crash`)."
  },
  {
   "property": "C121",
   "status": "partial",
   "theorems": [
    "Verif.Props.C121_whole",
    "Verif.Props.C121_cut_partial",
    "Verif.Props.C121_split",
    "Verif.Props.C121_ascii",
    "Verif.Props.C121_full_false"
   ],
   "note": "The full claim is false (`C121_full_false`)."
  },
  {
   "property": "C122",
   "status": "partial",
   "theorems": [
    "Verif.Props.C122_trim_partial",
    "Verif.Props.C122_early",
    "Verif.Props.C122_full_false",
    "Verif.Props.C122_no_ending",
    "Verif.Props.C122_unix"
   ],
   "note": "The full claim is false (`C122_full_false`, `C122_unix`)."
  },
  {
   "property": "C123",
   "status": "proved",
   "theorems": [
    "Verif.Props.C123_gmap",
    "Verif.Props.C123_raises",
    "Verif.Props.C123_stop_iteration",
    "Verif.Props.C123_no_iterables",
    "Verif.Props.C123_triggerize"
   ],
   "note": ""
  },
  {
   "property": "C124",
   "status": "proved",
   "theorems": [
    "Verif.Props.C124_get_from_all",
    "Verif.Props.C124_raises"
   ],
   "note": ""
  },
  {
   "property": "C125",
   "status": "partial",
   "theorems": [
    "Verif.Props.C125_dump_partial",
    "Verif.Props.C125_absent",
    "Verif.Props.C125_name",
    "Verif.Props.C125_unopened",
    "Verif.Props.C125_full_false",
    "Verif.Props.C125_grid"
   ],
   "note": "The full claim (a failed dump leaves the file as it was) is false (`C125_full_false`)."
  },
  {
   "property": "C126",
   "status": "partial",
   "theorems": [
    "Verif.Props.C126_close_dump_partial",
    "Verif.Props.C126_full_false",
    "Verif.Props.C126_fake_index"
   ],
   "note": "The full claim is false (`C126_full_false`): \"a.b\" and \"a_b\" share a file."
  },
  {
   "property": "C127",
   "status": "partial",
   "theorems": [
    "Verif.Props.C127_exit_partial",
    "Verif.Props.C127_fake_index",
    "Verif.Props.C127_grid_hangs",
    "Verif.Props.C127_two_clients",
    "Verif.Props.C127_full_false",
    "Verif.Props.C127_stale",
    "Verif.Props.C127_sticky"
   ],
   "note": "The full claim is false (`C127_full_false`, `C127_stale`, `C127_grid_hangs`)."
  },
  {
   "property": "C128",
   "status": "partial",
   "theorems": [
    "Verif.Props.C128_keys",
    "Verif.Props.C128_results_partial",
    "Verif.Props.C128_fresh_partial",
    "Verif.Props.C128_reuse",
    "Verif.Props.C128_full_false",
    "Verif.Props.C128_same_record"
   ],
   "note": "The full claim is false (`C128_full_false`, `C128_same_record`): records of two lists, mapped together later, collide."
  },
  {
   "property": "C129",
   "status": "proved",
   "theorems": [
    "Verif.Props.C129_counts",
    "Verif.Props.C129_progress",
    "Verif.Props.C129_ready",
    "Verif.Props.C129_results_ready",
    "Verif.Props.C129_in_process",
    "Verif.Props.C129_chunked",
    "Verif.Props.C129_terminate"
   ],
   "note": ""
  },
  {
   "property": "C130",
   "status": "partial",
   "theorems": [
    "Verif.Props.C130_path_partial",
    "Verif.Props.C130_distinct_partial",
    "Verif.Props.C130_names_partial",
    "Verif.Props.C130_underscore",
    "Verif.Props.C130_none",
    "Verif.Props.C130_full_false",
    "Verif.Props.C130_outside",
    "Verif.Props.C130_below",
    "Verif.Props.C130_fleet"
   ],
   "note": "The full claim is false (`C130_full_false`, `C130_none`, `C130_outside`)."
  },
  {
   "property": "C131",
   "status": "partial",
   "theorems": [
    "Verif.Props.C131_report",
    "Verif.Props.C131_none",
    "Verif.Props.C131_dontcare_partial",
    "Verif.Props.C131_no_text",
    "Verif.Props.C131_full_false"
   ],
   "note": "The full claim is false (`C131_full_false`)."
  },
  {
   "property": "C132",
   "status": "partial",
   "theorems": [
    "Verif.Props.C132_digsource_partial",
    "Verif.Props.C132_dynamic_source",
    "Verif.Props.C132_partial_dynamic",
    "Verif.Props.C132_full_false"
   ],
   "note": "The full claim is false (`C132_full_false`)."
  },
  {
   "property": "C133",
   "status": "partial",
   "theorems": [
    "Verif.Props.C133_loaded_partial",
    "Verif.Props.C133_raises",
    "Verif.Props.C133_unloaded",
    "Verif.Props.C133_full_false"
   ],
   "note": "The full claim is false (`C133_full_false`, `C133_raises`, `C133_unloaded`)."
  },
  {
   "property": "C134",
   "status": "partial",
   "theorems": [
    "Verif.Props.C134_run_partial",
    "Verif.Props.C134_runs_partial",
    "Verif.Props.C134_empty",
    "Verif.Props.C134_optional",
    "Verif.Props.C134_keyword",
    "Verif.Props.C134_too_many",
    "Verif.Props.C134_insert",
    "Verif.Props.C134_full_false"
   ],
   "note": "The full claim is false (`C134_full_false`, `C134_empty`, `C134_optional`)."
  },
  {
   "property": "C135",
   "status": "partial",
   "theorems": [
    "Verif.Props.C135_independent_partial",
    "Verif.Props.C135_made_partial",
    "Verif.Props.C135_mapping_shared",
    "Verif.Props.C135_given_mapping",
    "Verif.Props.C135_given_sequence",
    "Verif.Props.C135_run_leaks",
    "Verif.Props.C135_full_false"
   ],
   "note": "The full claim is false (`C135_full_false`, `C135_run_leaks`, `C135_mapping_shared`)."
  },
  {
   "property": "C136",
   "status": "proved",
   "theorems": [
    "Verif.Props.C136_round_trip",
    "Verif.Props.C136_bytes",
    "Verif.Props.C136_keys",
    "Verif.Props.C136_round_trip_from"
   ],
   "note": ""
  },
  {
   "property": "C137",
   "status": "proved",
   "theorems": [
    "Verif.Props.C137_torn",
    "Verif.Props.C137_crash_in_set"
   ],
   "note": ""
  },
  {
   "property": "C138",
   "status": "proved",
   "theorems": [
    "Verif.Props.C138_same_bytes",
    "Verif.Props.C138_again",
    "Verif.Props.C138_notepad"
   ],
   "note": ""
  },
  {
   "property": "C139",
   "status": "proved",
   "theorems": [
    "Verif.Props.C139_errors",
    "Verif.Props.C139_deep_enough",
    "Verif.Props.C139_too_deep"
   ],
   "note": ""
  },
  {
   "property": "C140",
   "status": "partial",
   "theorems": [
    "Verif.Props.C140_once_per_path",
    "Verif.Props.C140_returns",
    "Verif.Props.C140_cycle",
    "Verif.Props.C140_once_partial",
    "Verif.Props.C140_as_tree_partial",
    "Verif.Props.C140_full_false"
   ],
   "note": "Full claim false (`C140_full_false`: a shared mapping's entry goes from 1 to 3)."
  },
  {
   "property": "C141",
   "status": "proved",
   "theorems": [
    "Verif.Props.C141_result",
    "Verif.Props.C141_effects",
    "Verif.Props.C141_cycle"
   ],
   "note": ""
  },
  {
   "property": "C142",
   "status": "partial",
   "theorems": [
    "Verif.Props.C142_inputs_unchanged",
    "Verif.Props.C142_shares",
    "Verif.Props.C142_made_once",
    "Verif.Props.C142_as_tree",
    "Verif.Props.C142_returns",
    "Verif.Props.C142_cycle",
    "Verif.Props.C142_apart_partial",
    "Verif.Props.C142_full_false"
   ],
   "note": "Full claim false (`C142_full_false`)."
  },
  {
   "property": "C143",
   "status": "partial",
   "theorems": [
    "Verif.Props.C143_calls",
    "Verif.Props.C143_doubles",
    "Verif.Props.C143_bounds_partial",
    "Verif.Props.C143_full_false"
   ],
   "note": "Full claim false (`C143_full_false`: three dicts for two pairs)."
  },
  {
   "property": "C144",
   "status": "partial",
   "theorems": [
    "Verif.Props.C144_changes_none_partial",
    "Verif.Props.C144_apart_partial",
    "Verif.Props.C144_callers_objects",
    "Verif.Props.C144_callers_constants",
    "Verif.Props.C144_full_false"
   ],
   "note": "Full claim false (`C144_full_false`). Exceptions of the function itself are left to C17 and C18."
  },
  {
   "property": "C145",
   "status": "partial",
   "theorems": [
    "Verif.Props.C145_blends_partial",
    "Verif.Props.C145_uninterrupted",
    "Verif.Props.C145_pickles",
    "Verif.Props.C145_half_of_each_witness",
    "Verif.Props.C145_half_read_witness"
   ],
   "note": "Full claim false (`C145_half_of_each_witness`, `C145_half_read_witness`). All Stickies considered have one address."
  },
  {
   "property": "C146",
   "status": "partial",
   "theorems": [
    "Verif.Props.C146_values_partial",
    "Verif.Props.C146_half_read_witness",
    "Verif.Props.C146_whole_read"
   ],
   "note": "Full claim false (`C146_half_read_witness`). What holds byte by byte is C91."
  },
  {
   "property": "C147",
   "status": "partial",
   "theorems": [
    "Verif.Props.C147_log",
    "Verif.Props.C147_failure",
    "Verif.Props.C147_one_each_partial",
    "Verif.Props.C147_replaced",
    "Verif.Props.C147_reindexed",
    "Verif.Props.C147_one_each_full_fails"
   ],
   "note": "Full claim false (`C147_replaced`, `C147_reindexed`, `C147_one_each_full_fails`)."
  },
  {
   "property": "C148",
   "status": "partial",
   "theorems": [
    "Verif.Props.C148_first",
    "Verif.Props.C148_next",
    "Verif.Props.C148_over",
    "Verif.Props.C148_as_it_is_partial",
    "Verif.Props.C148_added_witness",
    "Verif.Props.C148_reindexed_witness",
    "Verif.Props.C148_again_witness",
    "Verif.Props.C148_full_fails"
   ],
   "note": "Full claim false (`C148_added_witness`, `C148_reindexed_witness`, `C148_again_witness`, `C148_full_fails`). Steps that edit the Composition they are in are not modelled."
  },
  {
   "property": "C149",
   "status": "partial",
   "theorems": [
    "Verif.Props.C149_alone_partial",
    "Verif.Props.C149_mixed_witness",
    "Verif.Props.C149_full_fails"
   ],
   "note": "Full claim false (`C149_mixed_witness`, `C149_full_fails`)."
  },
  {
   "property": "C150",
   "status": "partial",
   "theorems": [
    "Verif.Props.C150_claims_partial",
    "Verif.Props.C150_one_winner_partial",
    "Verif.Props.C150_both_win",
    "Verif.Props.C150_full_false",
    "Verif.Props.C150_no_lockout"
   ],
   "note": "Full claim false (`C150_both_win`, `C150_full_false`; `C150_no_lockout` without a lock). An OverflowError of the lock ends a process."
  },
  {
   "property": "C151",
   "status": "partial",
   "theorems": [
    "Verif.Props.C151_sections_partial",
    "Verif.Props.C151_counter_partial",
    "Verif.Props.C151_update_lost",
    "Verif.Props.C151_full_false"
   ],
   "note": "Full claim false (`C151_update_lost`, `C151_full_false`). An OverflowError of the lock ends a process."
  },
  {
   "property": "C152",
   "status": "partial",
   "theorems": [
    "Verif.Props.C152_shared_gridpaper_partial",
    "Verif.Props.C152_other_array",
    "Verif.Props.C152_full_false",
    "Verif.Props.C152_foreign_read"
   ],
   "note": "Full claim false (`C152_other_array`, `C152_full_false`); `C152_foreign_read`: a key of another process may be read half-replaced. An OverflowError of the lock ends a process."
  },
  {
   "property": "C153",
   "status": "partial",
   "theorems": [
    "Verif.Props.C153_listing_partial",
    "Verif.Props.C153_listing_has_partial",
    "Verif.Props.C153_blank",
    "Verif.Props.C153_skips",
    "Verif.Props.C153_full_false"
   ],
   "note": "Full claim false (`C153_skips`, `C153_blank`, `C153_full_false`). The partial is for processes that only add keys, without two processes in the doorway of the lock at once, and allows for the entry of zeros. Keys that consist of NULs only are excluded. An OverflowError of the lock ends a process."
  },
  {
   "property": "C154",
   "status": "partial",
   "theorems": [
    "Verif.Props.C154_all_returns",
    "Verif.Props.C154_all_raises",
    "Verif.Props.C154_first_partial",
    "Verif.Props.C154_stop_only_at_top",
    "Verif.Props.C154_stop_ends_the_search",
    "Verif.Props.C154_swallowed"
   ],
   "note": "Full claim false (`C154_swallowed`); exactly what `StopIteration` does is in `C154_stop_ends_the_search` and `C154_stop_only_at_top`. The partial is for predicates that raise anything else. Nested mappings are trees (no sharing)."
  },
  {
   "property": "C155",
   "status": "partial",
   "theorems": [
    "Verif.Props.C155_edit_partial",
    "Verif.Props.C155_filter_raises",
    "Verif.Props.C155_stop_iteration",
    "Verif.Props.C155_no_exceptions",
    "Verif.Props.C155_not_all_or_nothing"
   ],
   "note": "Full claim false (`C155_not_all_or_nothing`). Nested mappings are trees (shared and cyclic ones: C140). With functions that never raise it is the `dig_and_edit` of C09 (`C155_no_exceptions`)."
  },
  {
   "property": "C156",
   "status": "partial",
   "theorems": [
    "Verif.Props.C156_refines_partial",
    "Verif.Props.C156_ended_partial",
    "Verif.Props.C156_full_false",
    "Verif.Props.C156_notepad_get",
    "Verif.Props.C156_left_empty"
   ],
   "note": "Full claim false (`C156_full_false`, `C156_notepad_get`, `C156_left_empty`). `ftruncate` with the creator's own `mmap` is one step, and so are `fstat` and `mmap` of an opening process."
  },
  {
   "property": "C157",
   "status": "partial",
   "theorems": [
    "Verif.Props.C157_linearizable_partial",
    "Verif.Props.C157_unnoticed_partial",
    "Verif.Props.C157_full_false"
   ],
   "note": "Full claim false (`C157_full_false`: first use of the lock). `ftruncate` with the creator's `mmap` is one step (C156). Doorways as in C83."
  },
  {
   "property": "C158",
   "status": "proved",
   "theorems": [
    "Verif.Props.C158_block_now",
    "Verif.Props.C158_snapshot",
    "Verif.Props.C158_write_sets",
    "Verif.Props.C158_stale_write"
   ],
   "note": "A client's block stays mapped until the caller drops it. Writes happen between the calls of others."
  },
  {
   "property": "C159",
   "status": "partial",
   "theorems": [
    "Verif.Props.C159_raises_partial",
    "Verif.Props.C159_full_false"
   ],
   "note": "Full claim false (`C159_full_false`)."
  },
  {
   "property": "C160",
   "status": "proved",
   "theorems": [
    "Verif.Props.C160_dictionary",
    "Verif.Props.C160_open_close"
   ],
   "note": "Calls are made one after the other (for processes see C161)."
  },
  {
   "property": "C161",
   "status": "partial",
   "theorems": [
    "Verif.Props.C161_own_keys_partial",
    "Verif.Props.C161_full_false"
   ],
   "note": "Full claim false (`C161_full_false`). Values that a process sets can be encoded."
  },
  {
   "property": "C162",
   "status": "proved",
   "theorems": [
    "Verif.Props.C162_dictionary",
    "Verif.Props.C162_set_get",
    "Verif.Props.C162_stale_note"
   ],
   "note": "Calls do not overlap in time."
  },
  {
   "property": "C163",
   "status": "partial",
   "theorems": [
    "Verif.Props.C163_close_partial",
    "Verif.Props.C163_close_raises",
    "Verif.Props.C163_full_false"
   ],
   "note": "Full claim false (`C163_full_false`)."
  },
  {
   "property": "C164",
   "status": "partial",
   "theorems": [
    "Verif.Props.C164_as_called_partial",
    "Verif.Props.C164_bypassed",
    "Verif.Props.C164_unloaded",
    "Verif.Props.C164_triggerize",
    "Verif.Props.C164_trigger_alone",
    "Verif.Props.C164_splat",
    "Verif.Props.C164_argstop",
    "Verif.Props.C164_never_fails",
    "Verif.Props.C164_full_false"
   ],
   "note": "Full claim false (`C164_full_false`)."
  },
  {
   "property": "C165",
   "status": "partial",
   "theorems": [
    "Verif.Props.C165_pass_parameters_partial",
    "Verif.Props.C165_catch_interaction_partial",
    "Verif.Props.C165_default",
    "Verif.Props.C165_constant",
    "Verif.Props.C165_full_false"
   ],
   "note": "Full claim false (`C165_full_false`)."
  },
  {
   "property": "C166",
   "status": "partial",
   "theorems": [
    "Verif.Props.C166_histories",
    "Verif.Props.C166_set_get",
    "Verif.Props.C166_removed_with_error",
    "Verif.Props.C166_refused_and_listed",
    "Verif.Props.C166_stuck",
    "Verif.Props.C166_careful_partial",
    "Verif.Props.C166_full_false"
   ],
   "note": "Full claim false (`C166_full_false`)."
  },
  {
   "property": "C167",
   "status": "partial",
   "theorems": [
    "Verif.Props.C167_close_partial",
    "Verif.Props.C167_close_raises",
    "Verif.Props.C167_full_false"
   ],
   "note": "Full claim false (`C167_full_false`)."
  },
  {
   "property": "C168",
   "status": "partial",
   "theorems": [
    "Verif.Props.C168_life_partial",
    "Verif.Props.C168_refused",
    "Verif.Props.C168_join_running",
    "Verif.Props.C168_spoiled",
    "Verif.Props.C168_full_false"
   ],
   "note": "Full claim false (`C168_full_false`)."
  },
  {
   "property": "C169",
   "status": "proved",
   "theorems": [
    "Verif.Props.C169_idle",
    "Verif.Props.C169_runs"
   ],
   "note": ""
  },
  {
   "property": "C170",
   "status": "partial",
   "theorems": [
    "Verif.Props.C170_order_partial",
    "Verif.Props.C170_full_false"
   ],
   "note": "Full claim false (`C170_full_false`)."
  },
  {
   "property": "C171",
   "status": "partial",
   "theorems": [
    "Verif.Props.C171_index",
    "Verif.Props.C171_run_follows_index",
    "Verif.Props.C171_function_names_partial",
    "Verif.Props.C171_function_names_raises",
    "Verif.Props.C171_full_false",
    "Verif.Props.C171_check"
   ],
   "note": "Full claim false (`C171_full_false`)."
  },
  {
   "property": "C172",
   "status": "partial",
   "theorems": [
    "Verif.Props.C172_plain",
    "Verif.Props.C172_next_is_as_now",
    "Verif.Props.C172_completes_partial",
    "Verif.Props.C172_grown",
    "Verif.Props.C172_full_false",
    "Verif.Props.C172_blames_uncalled",
    "Verif.Props.C172_reindexed",
    "Verif.Props.C172_reindexed_lost",
    "Verif.Props.C172_noted"
   ],
   "note": "Full claim false (`C172_full_false`). Steps that run their own Composition are not modelled."
  },
  {
   "property": "C173",
   "status": "partial",
   "theorems": [
    "Verif.Props.C173_full_false",
    "Verif.Props.C173_starved",
    "Verif.Props.C173_slot_then_inside_partial",
    "Verif.Props.C173_someone",
    "Verif.Props.C173_overtaken"
   ],
   "note": "Full claim false (`C173_full_false`, `C173_starved`). Processes that die or time out are in C52 and C80-C82."
  },
  {
   "property": "C174",
   "status": "partial",
   "theorems": [
    "Verif.Props.C174_use",
    "Verif.Props.C174_many_partial",
    "Verif.Props.C174_last",
    "Verif.Props.C174_dead",
    "Verif.Props.C174_index",
    "Verif.Props.C174_full_false"
   ],
   "note": "Full claim false (`C174_full_false`). One use after the other; with contention C49-C52."
  },
  {
   "property": "C175",
   "status": "partial",
   "theorems": [
    "Verif.Props.C175_full_false",
    "Verif.Props.C175_closed_under",
    "Verif.Props.C175_closed_inside",
    "Verif.Props.C175_exclusion_partial",
    "Verif.Props.C175_returns",
    "Verif.Props.C175_nothing_left",
    "Verif.Props.C175_close_entered"
   ],
   "note": "Full claim false (`C175_full_false`, `C175_closed_under`). Calls one after the other; interleavings are C49-C53."
  },
  {
   "property": "C176",
   "status": "partial",
   "theorems": [
    "Verif.Props.C176_by_name",
    "Verif.Props.C176_stale",
    "Verif.Props.C176_full_false",
    "Verif.Props.C176_follow_partial",
    "Verif.Props.C176_crossed"
   ],
   "note": "Full claim false (`C176_full_false`, `C176_crossed`). Steps, sends and trackers are taken not to touch the lists of the captures themselves; further `add_captures` start afresh (the theorems apply from the last one on)."
  },
  {
   "property": "C177",
   "status": "partial",
   "theorems": [
    "Verif.Props.C177_ignored",
    "Verif.Props.C177_bound",
    "Verif.Props.C177_blamed",
    "Verif.Props.C177_rebound_partial",
    "Verif.Props.C177_stays_bound",
    "Verif.Props.C177_full_false"
   ],
   "note": "Full claim false (`C177_full_false`, `C177_stays_bound`). The repository has no such subclass: `tableHook` is the obvious one by the docstring; `C177_bound` and `C177_blamed` are about any."
  },
  {
   "property": "C178",
   "status": "partial",
   "theorems": [
    "Verif.Props.C178_in_order",
    "Verif.Props.C178_first_only",
    "Verif.Props.C178_left",
    "Verif.Props.C178_one_item_partial",
    "Verif.Props.C178_true_sound",
    "Verif.Props.C178_full_false",
    "Verif.Props.C178_items_once"
   ],
   "note": "Full claim false (`C178_full_false`). What is decided instead: `C178_in_order`, `C178_first_only`."
  }
 ]
}