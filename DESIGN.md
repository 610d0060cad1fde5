# Formal model of MillionConcepts/dustgoggles — design

Pinned source: `/repo` (python), read as text, never run. Model: `/verif/lean/Verif/**` (Lean 4.33.0, core and single
Mathlib modules).

## Layout

* `Verif/Py/*` – Python value layer: exceptions, ordered dicts, strings, nested values.
* `Verif/Model/*` – the model, one file per source file (or class). Every definition cites `/repo` lines and notes its simplifications.
* `Verif/Spec/*` – small independent specifications (what the English says), which do not mention model helpers.
* `Verif/Lemmas/*` – helper lemmas, invariants, simulations.
* `Verif/Props/*` – the property theorems, named `Cnn_…`, with non-vacuity `example`s beside them. A name ending in `_partial`
  proves part of a property (the note says what is missing); a name containing `false`, or describing a defect, is the
  proved negation with a concrete witness.
* `seeded/LOG.jsonl` – mutation testing of the model: one line per wrong program tried.

## Trusted base

* Lean's kernel, and the axioms `propext`, `Classical.choice`, `Quot.sound` only. No `sorry`, no `native_decide`,
  no axioms of our own. The axioms of each theorem are listed with it below.
* The reading of the Python source, cited per definition.
* The modelled behaviour of Python and of third-party code, recorded at each definition:
  * dicts are insertion ordered; `d[k] = v` replaces in place or appends; `|` and `update`; key equality is an abstract
    decidable equality (Python's `==`/`hash` classes);
  * exceptions are values; `except Exception` catches everything but KeyboardInterrupt and SystemExit; a StopIteration
    leaving a generator becomes RuntimeError (PEP 479);
  * `SharedMemory` on Linux: exact block sizes, zero-filled creation, exclusive creation (`O_EXCL`) atomic, attach and
    unlink by name, a detached process keeps no name. Each primitive operation is atomic; nothing is assumed between two
    of them. The resource tracker (a message sent with every create, attach and unlink) is modelled in C106 to C110 and
    left out elsewhere; by C109 the other theorems then hold for processes that have deactivated it, and for ASCII names;
  * SHA-based addresses: an arbitrary hash function, assumed injective on the keys in play where a theorem says so;
  * codecs other than pickle (C136 to C139: values built of None, booleans, numbers, strings, bytes, tuples, lists and dicts; not sets, classes, instances), json (C100, C101) and ast (C103); elsewhere codecs are abstract, the Python compiler, `getsource`, regular expressions (but for C104), `literal_eval` (but for C103 to C105), file decoding (but for C121 and C122),
    numpy casts and error measures, pyarrow reading, comparison and sorting are abstract functions; theorems hold for
    all of them, with hypotheses stated where needed (e.g. the codec brings the value back);
  * `more_itertools.divide/windowed`, `cytoolz.merge/keyfilter/first/nth/valfilter`, `functools.cache/partial/reduce` are
    modelled by their documented behaviour;
  * pandas frames are lists of named columns with labels; a null cell is different from every cell including itself.

## Modelling conventions

* Mutation is state passing; a function that mutates and then raises returns both the new state and the error.
* Shared-memory code is written once as a tree of primitive operations (`Prog`), which is then run sequentially
  (`Prog.run`), cut at any operation (`Prog.crash`), or interleaved with other programs (`interleave`).
* Spin loops take fuel; theorems either quantify over all fuel (hangs) or give enough.
* The lock is in addition a small-step transition system over arbitrarily many processes; `Lemmas/LockSim.lean` shows
  that interleaved lock programs are simulated by it.

## What is modelled and what is not

Modelled: `structures.py` (all but `__str__` methods), `func.py` (all combinators with behaviour),
`composition.py` (all), `dynamic.py` (`Dynamic`, `define`, `compile_source`, `dontcare`, `exc_report`, `digsource`), `tracker.py` (all), `scrape.py` (loaders, caches, trimming, scraping),
`pivot.py` (`downcast`, `downcast_df`, `check_and_drop_duplicate_columns`, `extract_constants`, `split_on`, `squeeze`,
`typed_columns`, `unique_to_records`, `junction`, `dupe_df_block`, `smash`, `unpack`, `unpack_column`; not `pdstr`), `mosaic.py` (all), `codex/memutilz.py`,
`codex/codecs.py`, `codex/implements.py` (`SlidingLock`, `TagIndex`, `MetaTagIndex`, `FakeIndex` as absence of an index,
`Notepad`, `GridPaper`, `Sticky`), `test_utils/core.py` (all; the random generator as an arbitrary source of choices).

Not modelled: `codex/_array_holding_area.py` (commented out), string representations, docstrings and signatures, printing, timestamps,
floating-point rounding beyond the abstract grids, scheduling fairness, garbage collection.


## Property by property

Each entry: what is modelled, how it is proved, and the outcome. Theorems are in namespace `Verif.Props`; the letters after a theorem name are the axioms it depends on (`p` = propext, `c` = Classical.choice, `q` = Quot.sound, `–` = none), read off `#print axioms`.

### C01 — to_records emits exactly one record per innermost mapping (proved)

*Model.* `to_records` (`Model/Nested.lean`) over nested values, with the level names as a stream that can run out; `Mapping` is one class.

*Proof.* mutual structural induction on the tree against an independent list of (path, leaf) positions (`Spec/Nested.lean`); the two failures are separate theorems.

*Theorems.* `C01_to_records` (pcq), `C01_too_few_names` (pcq), `C01_not_a_mapping` (pcq), `C01_positions_distinct` (p)

### C02 — unnest is lossless when an escape character absent from the keys is used (proved)

*Model.* `_unnest`, `unnest` over string keys, `cytoolz.merge` as dict update.

*Proof.* the built key is decoded again (injectivity of the escaped joining), then induction on the tree; the default escape is refuted by two paths with one key.

*Outcome.* Proved for a one-character escape under the stated hypotheses; C02_default_escape_loses shows the loss with escape=''.

*Theorems.* `C02_unnest_lossless` (pq), `C02_default_escape_loses` (pcq)

### C03 — NestingDict creates intermediate levels and reads back what was written (proved)

*Model.* `NestingDict.__missing__`, item get and set along a path.

*Proof.* induction on the path; frame condition stated for paths that are neither prefix nor extension.

*Theorems.* `C03_write_read` (pq), `C03_write_succeeds` (pq), `C03_read_creates_only_path` (pq)

### C04 — NestingDict.todict converts every level and keeps all contents (proved)

*Model.* `todict` through `dig_and_edit` with `dict(v)` as setter.

*Proof.* structural induction; a predicate "no NestingDict at any depth" and an erasure function that forgets classes.

*Theorems.* `C04_todict` (pcq)

### C05 — dig_for_values/keys/items find every match, once, at every depth (proved)

*Model.* `_evaluate_diglevel`, `dig_for_all`, wrappers and projections.

*Proof.* mutual induction against the list of reachable levels; multiplicity is preserved because the statement is an equality of lists.

*Theorems.* `C05_dig_for_items` (pcq), `C05_projections` (p)

### C06 — dig_for_value/key/item return the first element of the exhaustive search (proved)

*Model.* `dig_for`, `dig_wrapper`.

*Proof.* mutual induction: `dig_for` is the head of `dig_for_all`.

*Theorems.* `C06_first_of_all` (pq)

### C07 — dig_for_* return a breadth-first (shallowest) match (partial)

*Model.* as C06.

*Proof.* counterexample (a deeper match in an earlier branch); partial: first in level-before-sublevels order.

*Outcome.* False of the code (C07_not_breadth_first gives a witness); partial: first in level-before-sublevels order, so a match in an enclosing mapping always wins.

*Theorems.* `C07_not_breadth_first` (p), `C07_shallowest_partial` (pcq)

### C08 — dig predicates built from constants honour match='key', 'value' and 'item' (partial)

*Model.* `constant_to_dig_predicate`, `keyonly`, `valonly`.

*Proof.* case analysis; `match="item"` calls a two-argument partial of `eq` with three arguments: TypeError.

*Outcome.* False for match='item' (C08_item_raises: TypeError on every non-empty mapping); partial covers key, value and callables.

*Theorems.* `C08_constants_partial` (p), `C08_item_raises` (p)

### C09 — dig_and_edit edits exactly the matching entries at every level (proved)

*Model.* `dig_and_edit` with a fuel parameter standing for the recursion depth.

*Proof.* induction on the fuel and on the depth of the tree; a setter that grows the tree is shown to exhaust every fuel.

*Theorems.* `C09_result` (pq), `C09_terminates` (pcq), `C09_diverges_without_depth_bound` (pq)

### C10 — rmerge path law (proved)

*Model.* `rmerge` on ordered dicts.

*Proof.* induction on the first tree; lookup lemma plus an equality for the key order.

*Theorems.* `C10_rmerge_law` (pcq)

### C11 — rmerge is idempotent, has {} as identity, and extends b (proved)

*Model.* as C10.

*Proof.* induction; counterexample for associativity.

*Theorems.* `C11_identities` (pcq), `C11_idempotent` (pcq), `C11_extends_right` (pcq), `C11_keeps_left` (pcq), `C11_not_associative` (p)

### C12 — rmerge honours a caller-supplied mtypes at every depth (partial)

*Model.* `rmerge` with caller `mtypes`; the recursive call drops the argument as the code does.

*Proof.* counterexample at depth two; partial for the top level and for the default.

*Outcome.* False of the code below the first level (C12_mtypes_not_honoured); partial: honoured at the top level, and everywhere for the default mtypes.

*Theorems.* `C12_mtypes_not_honoured` (p), `C12_mtypes_top_level_partial` (pcq)

### C13 — insert_after inserts directly after the prior key (proved)

*Model.* `insert_after` as a loop over items.

*Proof.* list induction; equality with the list split at the prior key.

*Theorems.* `C13_insert_after` (pq), `C13_absent_prior` (pq), `C13_present_after` (pq), `C13_present_before` (pq)

### C14 — get_from returns the nested item or the default (partial)

*Model.* `getitemattr`, `get_from` over an abstract object graph with `getitem` and `getattr` outcomes.

*Proof.* induction on the key path; counterexample for a non-string key on an object without items.

*Outcome.* False for keys that are not strings (C14_non_string_key_escapes: TypeError escapes); partial covers keys whose attribute lookup raises AttributeError.

*Theorems.* `C14_get_from_partial` (p), `C14_get_from_only` (p), `C14_non_string_key_escapes` (pcq)

### C15 — separate_by is an order-preserving partition (proved)

*Model.* `separate_by`; the predicate returns the object True, another object or raises.

*Proof.* list induction against two filters.

*Theorems.* `C15_separate_by` (p), `C15_raises` (p)

### C16 — HashDict lookups are equivalent to the last assignment (proved)

*Model.* `HashDict` as a state machine; the hash is any function.

*Proof.* induction over histories with an invariant on both tables.

*Theorems.* `C16_lookup` (pcq), `C16_counts` (pcq)

### C17 — MaybePool gives the same results in-process, pooled and chunked (proved)

*Model.* `MaybePool` in the three modes; a worker is a function call; `more_itertools.divide`.

*Proof.* loops as folds; chunk arithmetic from C19.

*Outcome.* Function modelled as deterministic; worker pickling and crashes are not modelled.

*Theorems.* `C17_same_in_all_modes` (pcq)

### C18 — MaybePool isolates failures (partial)

*Model.* `MaybeResult`, `AsyncResult.get`, `MaybePool.get`.

*Proof.* fold invariants; counterexample: one failing record loses its chunk.

*Outcome.* False for chunked pools (C18_chunked_loses_results); partial covers in-process and unchunked pools, including raise_exc=True.

*Theorems.* `C18_isolates_failures_partial` (pq), `C18_raise_exc` (pq), `C18_chunked_loses_results` (p)

### C19 — Chunking executes each record exactly once in balanced chunks (proved)

*Model.* `more_itertools.divide` as index arithmetic.

*Proof.* arithmetic on the chunk bounds, induction on the number of chunks.

*Theorems.* `C19_chunks` (pq), `C19_map_uses_chunks` (pcq)

### C20 — reindex_mapping and enumerate_as_mapping number values consecutively from zero (proved)

*Model.* `reindex_mapping`, `enumerate_as_mapping`.

*Proof.* list lemmas on `zip`/`enumerate`.

*Theorems.* `C20_reindex` (pcq), `C20_enumerate` (pcq)

### C21 — listify is total and idempotent (proved)

*Model.* `listify` over str, other collections and other things.

*Proof.* case analysis.

*Theorems.* `C21_listify` (–)

### C22 — are_in decides containment of all (any) items (proved)

*Model.* `are_in` via `functools.reduce` without initial value.

*Proof.* list induction.

*Theorems.* `C22_are_in` (pq)

### C23 — intersection and disjoint compute the shared and unshared elements (proved)

*Model.* `intersection`, `disjoint`.

*Proof.* list induction on the reduce.

*Theorems.* `C23_intersection` (pq), `C23_disjoint` (pcq)

### C24 — optionalize swallows exactly ordinary exceptions (proved)

*Model.* `optionalize` on an effectful callable with a log of callback calls.

*Proof.* case analysis over all exceptions.

*Theorems.* `C24_optionalize` (p)

### C25 — argstop truncates positional arguments (proved)

*Model.* `argstop`, Python slice `args[:n]` including negative n.

*Proof.* case analysis.

*Theorems.* `C25_argstop` (p), `C25_argstop_negative` (pq)

### C26 — Composition.execute threads the signal through all steps in order (proved)

*Model.* `Composition` (`Model/Composition.lean`): steps, sends, inserts, captures, tracker; functions are arbitrary actions on a world, so they may raise and have effects.

*Proof.* induction over the step list; the fold of the steps is stated in `Spec/Composition.lean` without the class.

*Outcome.* Functions are arbitrary effectful actions on a world; the claim is for Compositions without sends (C29, C30 for those with).

*Theorems.* `C26_execute_threads` (pcq), `C26_plain_functions` (pcq)

### C27 — The signal flows into the first open positional slot (proved)

*Model.* `_flow_signal`, `first(filter(...count()))`, sorted insert positions.

*Proof.* the least free slot is characterised by a minimality statement; sorting by permutation and order.

*Theorems.* `C27_signal_in_first_open_slot` (pcq), `C27_no_gaps` (pcq)

### C28 — Inserts override arguments baked into partial steps (proved)

*Model.* `_call_partial`/`_do_step` on `functools.partial` steps.

*Proof.* list indexing lemmas per slot and keyword.

*Outcome.* Baked positional arguments and keywords of partials; inserts win.

*Theorems.* `C28_inserts_override_baked` (pcq), `C28_no_inserts` (pcq)

### C29 — Sends to later steps are delivered in the same run, to earlier steps in the next (proved)

*Model.* `_perform_sends`, `place_into`, `add_send`.

*Proof.* induction over the run; the send writes the insert table before or after the target step is reached.

*Theorems.* `C29_later_step_same_run` (pcq), `C29_earlier_step_next_run` (pcq)

### C30 — Captures record each step's last output (proved)

*Model.* `add_captures`, `add_capture`, `itercall`, `execute` with heap cells for the capture lists.

*Proof.* invariant on the cells over any number of executions; frame hypothesis that nobody else writes the fresh cells.

*Outcome.* Any number of executions after add_captures, any failure point; the steps, sends and tracker may not write to the fresh capture lists themselves.

*Theorems.* `C30_captures` (pcq), `C30_success` (pcq)

### C31 — A failing pipeline reports the failing step and stops there (proved)

*Model.* `execute`, `_track_factory`, failure tracking, `optional`.

*Proof.* induction over the steps; exact log equality.

*Outcome.* StopIteration from a step appears as RuntimeError (PEP 479), as the generator does.

*Theorems.* `C31_stops_at_failing_step` (p), `C31_failure_is_reported` (p), `C31_log_of_a_run` (pcq)

### C32 — add_step without a name appends (proved)

*Model.* `add_step`.

*Proof.* the names are 0..n-1 or 1..n+1 by an invariant; counterexample with a named integer.

*Outcome.* Any number of unnamed additions; with an explicitly named integer step the next unnamed one can replace it (C32_named_step_replaced).

*Theorems.* `C32_unnamed_steps_append` (pcq), `C32_named_step_replaced` (p)

### C33 — reindex keeps the pipeline's behaviour (partial)

*Model.* `reindex`.

*Proof.* counterexample; partial by congruence of the step loop under renaming, with the invariant (kept by each send) that both names of a step have the same inserts.

*Outcome.* False of the code as stated (C33_full_false: an insert for a renamed step is lost). Partial: C33_attached_partial, any sends and inserts, if what is kept for each step is the same under its name and under the number of its place, and sends to steps reach the same place under both; C33_reindex_partial, no sends and no inserts, or names already 0..n-1.

*Theorems.* `C33_attached_partial` (pcq), `C33_full_false` (pcq), `C33_reindex_partial` (pcq)

### C34 — memorize/remember round-trips through shared memory (proved)

*Model.* `memorize`, `remember`, `open_block`, `fetch_block_bytes` as programs of primitive shared-memory operations (`Model/Shm.lean`).

*Proof.* symbolic execution for every store; codecs are arbitrary functions.

*Theorems.* `C34_memorize_remember` (pq), `C34_refuses` (pq), `C34_bad_value` (pq)

### C35 — open_block creates, attaches or replaces as requested (proved)

*Model.* `open_block`.

*Proof.* symbolic execution, all flags.

*Theorems.* `C35_open_block` (pq), `C35_no_create` (p)

### C36 — delete_block honours missing_ok (partial)

*Model.* `delete_block`.

*Proof.* symbolic execution; `missing_ok=True` on a missing block raises FileNotFoundError in the code.

*Theorems.* `C36_delete_block_partial` (p), `C36_missing_ok_ignored` (p), `C36_full_false` (pcq)

### C37 — Sticky.read returns what was stuck (proved)

*Model.* `Sticky` with its cached block.

*Proof.* symbolic execution for every store.

*Theorems.* `C37_sticky_read` (pq), `C37_restick` (pq), `C37_nothing_there` (p)

### C38 — TagIndex behaves as a set of keys with stable numbering (proved)

*Model.* `TagIndex` (length block, key blocks, hash markers) including the `SlidingLock` around each operation.

*Proof.* refinement: an invariant relates the store to an abstract list of distinct keys, preserved by every call, induction over histories; frame for all other addresses.

*Outcome.* Histories of non-overlapping calls; keys nonempty and not bytes, SHA injective on the keys in play, fewer than 256^5 calls.

*Theorems.* `C38_tag_index` (pcq)

### C39 — Notepad behaves as a dictionary (proved)

*Model.* `Notepad` on top of C38.

*Proof.* refinement to a finite map, induction over histories with any number of clients.

*Outcome.* Histories of non-overlapping calls; keys in play do not begin with "index"; values the codec brings back; absent key: get raises FileNotFoundError (see C40).

*Theorems.* `C39_notepad_is_a_dictionary` (pcq)

### C40 — Notepad.get returns the default for an absent key (partial)

*Model.* `Notepad.get`.

*Proof.* symbolic execution on every absent key.

*Outcome.* False of the code: C40_absent_raises (FileNotFoundError whatever the default). Partial: live keys, and stored None.

*Theorems.* `C40_absent_raises` (pcq), `C40_get_default_partial` (pcq), `C40_full_false` (pcq)

### C41 — Notepads with different prefixes do not interfere (partial)

*Model.* block addresses `prefix_key`.

*Proof.* frame of every operation is a set of addresses; counterexample with prefixes `a` and `a_b`.

*Outcome.* False of the code: C41_full_false (prefixes 'a' and 'a_b' share the block 'a_b_x'). Partial: prefixes none of which, with its underscore, begins another; covers all distinct underscore-free prefixes.

*Theorems.* `C41_prefixes_apart_partial` (pcq), `C41_full_false` (pcq)

### C42 — Notepad.close releases every block it created (proved)

*Model.* `Notepad.close`, `clear`, `TagIndex.close`.

*Proof.* the invariant of C39 and induction over the deletion loop.

*Theorems.* `C42_close_releases` (pcq)

### C43 — A failed Notepad set leaves the notepad unchanged (partial)

*Model.* `Notepad.set` when the codec or block creation fails.

*Proof.* symbolic execution of the failing path.

*Outcome.* False of the code: C43_full_false (key listed after a failed set). Partial: values all as before, listing as before or with the key appended.

*Theorems.* `C43_failed_set_partial` (pcq), `C43_full_false` (pcq)

### C44 — Keys with reserved names cannot damage the index (partial)

*Model.* the reserved-name checks of `set` and `del`.

*Proof.* frame of the operations; concrete damage by `del np["index_key_0"]`.

*Outcome.* False of the code: C44_full_false (del np['index_key_0'] hides a live key). Partial: keys not beginning with 'index'; reserved keys refused without change.

*Theorems.* `C44_reserved_partial` (pcq), `C44_no_loss_partial` (pcq), `C44_damage` (pcq), `C44_full_false` (pcq)

### C45 — TagIndex accepts every key (partial)

*Model.* `TagIndex.add` for every kind of key.

*Proof.* exact outcome per kind of key.

*Outcome.* False of the code for the empty key and bytes keys (C45_empty_key, C45_bytes_then_remove, C45_full_false). Partial: every nonempty non-bytes key.

*Theorems.* `C45_empty_key` (pcq), `C45_bytes_then_remove` (pcq), `C45_full_false` (pcq), `C45_accepts_partial` (pcq)

### C46 — A crash during TagIndex.add loses no indexed key (proved)

*Model.* the operation tree of `add`, cut after any number of primitive operations.

*Proof.* every crash point enumerated by the structure of the tree, for every store satisfying the invariant.

*Theorems.* `C46_crash_in_add` (pcq)

### C47 — A crash during TagIndex removal loses no other key (proved)

*Model.* the operation tree of removal, cut anywhere.

*Proof.* as C46.

*Theorems.* `C47_crash_in_remove` (pcq)

### C48 — A crash during Notepad set leaves other keys readable (partial)

*Model.* the operation tree of `Notepad.set`, cut anywhere.

*Proof.* as C46; the window between unlink and write is the counterexample.

*Outcome.* Second half false of the code: C48_full_false (key missing, or decoded from zeros). Partial: other keys always read as before; the key reads old, new, missing or zeros.

*Theorems.* `C48_crash_in_set_partial` (pcq), `C48_crash_reads` (pcq), `C48_full_false` (pcq)

### C49 — SlidingLock gives mutual exclusion (partial)

*Model.* `SlidingLock` both as programs and as a transition system over arbitrarily many processes (`Model/LockTS.lean`), tied by a simulation (`Lemmas/LockSim.lean`).

*Proof.* inductive invariants over all reachable states; two counterexample traces.

*Outcome.* False of the code: C49_full_false (gap between marker and lock block), C49_stale_count. Partial: schedules in which no other process enters its doorway or leaves while a process is in its doorway.

*Theorems.* `C49_mutual_exclusion_partial` (pcq), `C49_full_false` (p), `C49_stale_count` (p)

### C50 — SlidingLock slots are never shared (proved)

*Model.* as C49.

*Proof.* inductive invariant: a marker block has one owner.

*Theorems.* `C50_slots` (pq)

### C51 — SlidingLock never deadlocks among live processes (proved)

*Model.* as C49.

*Proof.* well-founded argument: the least slot can always finish; induction on the number of active processes.

*Theorems.* `C51_no_deadlock` (pcq)

### C52 — A holder that dies blocks later acquirers (partial)

*Model.* as C49 with a stopped process.

*Proof.* invariant on the dead slot; counterexample trace with a later count.

*Outcome.* As stated false of the code (C52_full_false: a later count makes the newcomer skip the dead lock block). Partials: any schedule for a process already behind the dead slot; quiet schedules in general.

*Theorems.* `C52_dead_holder_blocks_partial` (pq), `C52_quiet_partial` (pcq), `C52_full_false` (p)

### C53 — Concurrent adds with default locking lose no key (partial)

*Model.* `TagIndex.add` programs interleaved operation by operation.

*Proof.* counterexample schedule evaluated on the real programs; partial by rely-guarantee for add and the lock simulation.

*Outcome.* False of the code: C53_full_false (two interleaved adds, one key lost), proved on the operation-level programs. Partial: any number of clients, schedules that disturb no doorway (pending operations), via a simulation into the transition system and rely-guarantee for add.

*Theorems.* `C53_adds_partial` (pcq), `C53_full_false` (pcq)

### C54 — Deleting from a MetaTagIndex / GridPaper returns (partial)

*Model.* `MetaTagIndex.__delitem__`, `GridPaper.__delitem__` with the lock taken twice.

*Proof.* the spin loop never ends for any fuel; partial without lock.

*Outcome.* False of the code (C54_full_false): with the default lock the same lock is entered twice, so the call never returns (every fuel), the array is lost while its key stays listed, and later adds hang too. Partial: true with no_lockout=True.

*Theorems.* `C54_index_del_hangs` (pcq), `C54_grid_del_hangs` (pcq), `C54_del_without_lock_partial` (pcq), `C54_full_false` (pcq)

### C55 — GridPaper reads back the array last set (proved)

*Model.* `GridPaper`, `memorize_array`, `remember_array`, metadata json as a codec.

*Proof.* refinement to a dictionary of arrays with capacities, induction over histories.

*Outcome.* Arrays of at least one dimension and one byte; histories contain deletions when no client has a lock (C54).

*Theorems.* `C55_gridpaper_is_a_dictionary` (pcq)

### C56 — GridPaper.set(exists_ok=False) refuses to overwrite (partial)

*Model.* `GridPaper.set` passing `exists_ok` as `create`.

*Proof.* symbolic execution for every store.

*Outcome.* False of the code (C56_full_false): exists_ok is passed as create, so a new key raises FileNotFoundError and an existing one is overwritten. Partial: exists_ok=True stores.

*Theorems.* `C56_new_key_refused` (pcq), `C56_existing_overwritten` (pcq), `C56_exists_ok_stores_partial` (pcq), `C56_full_false` (pcq)

### C57 — Dynamic error flags agree with the error log (proved)

*Model.* `Dynamic` (`Model/Dynamic.lean`); the compiler, `FunctionType` and functions are arbitrary.

*Proof.* invariant over histories of all public operations.

*Outcome.* Made by the constructor or from_function, then any history (load, compile, define, unload, call, attribute assignment); compiler and functions abstract.

*Theorems.* `C57_flags` (pq)

### C58 — An optional Dynamic never raises ordinary exceptions from its function (proved)

*Model.* `Dynamic.__call__`, `dontcare`, `optionalize`.

*Proof.* case analysis over outcomes.

*Theorems.* `C58_call` (pq)

### C59 — Dynamic loads at most once unless reloaded or unloaded (partial)

*Model.* `load`, `unload`, `_maybe_load_on_call`.

*Proof.* case analysis over all states; attribute deletion of a class attribute raises AttributeError.

*Outcome.* unload as stated is false (C59_unload_full_false): a Dynamic that never had a function raises AttributeError; the rest holds. Also proved: reload=True replaces code and function (C59_reload), keeps the old function when the source no longer compiles (C59_reload_not_compiling), and a Dynamic with code but no function can be neither loaded nor called without it (C59_code_without_function).

*Theorems.* `C59_load_twice` (p), `C59_unready` (p), `C59_load_on_call` (p), `C59_load` (p), `C59_reload` (p), `C59_reload_not_compiling` (p), `C59_code_without_function` (p), `C59_unload_partial` (pq), `C59_unload_unloaded_raises` (–), `C59_unload_full_false` (p)

### C60 — Dynamic.from_function keeps the function reloadable (partial)

*Model.* `from_function`, which calls `__init__` afterwards and so overwrites source and globals.

*Proof.* for every function; counterexample.

*Outcome.* False of the code (C60_full_false, C60_never_reloads for every function). Partial: works until unloaded, or when source and globals are passed again.

*Theorems.* `C60_never_reloads` (p), `C60_full_false` (p), `C60_from_function_partial` (p)

### C61 — Tracker numbers records consecutively (proved)

*Model.* `Tracker.track`, `set_metadata`, `clear`.

*Proof.* induction over histories.

*Theorems.* `C61_records` (pcq)

### C62 — Tracker.dump keeps the log file a JSON array (partial)

*Model.* `Tracker.dump` on a byte-level file.

*Proof.* induction over histories on the file contents; counterexample: json.dumps raises after the comma is written.

*Outcome.* False of the code when metadata is not serialisable (C62_full_false). Partial: histories in which no dump raises.

*Theorems.* `C62_full_false` (pcq), `C62_paused` (p), `C62_dump_appends` (p), `C62_file_partial` (pcq)

### C63 — trim_label cuts at the first known ending (proved)

*Model.* `trim_label`, `head_file` bytes, regex search for the two endings as first occurrence.

*Proof.* list search lemma: first occurrence is minimal.

*Theorems.* `C63_trim_label` (pq), `C63_cases` (pq)

### C64 — Cached label loading is stable (proved)

*Model.* `functools.cache` as a memo table keyed by the arguments, files changing between calls.

*Proof.* invariant over histories.

*Outcome.* Per set of arguments as given (functools.cache keys).

*Theorems.* `C64_stable` (pq), `C64_scrape_uses_loaded` (pq), `C64_read_once` (pq)

### C65 — scrape_patterns returns one entry per requested field (proved)

*Model.* `scrape_patterns`, `make_scraper`, `bulk_scrape_metadata`; regex and literal_eval abstract.

*Proof.* list induction.

*Outcome.* Exceptions of literal_eval other than ValueError and SyntaxError (e.g. TypeError for a dict literal with a list key) are not caught: C65_scrape.

*Theorems.* `C65_scrape` (p), `C65_scrape_patterns` (pq), `C65_returns` (p), `C65_bulk` (pq), `C65_bulk_raises` (p)

### C66 — Integer downcasting is lossless and minimal (proved)

*Model.* integer branch of `downcast` exactly, with numpy casts as reduction modulo 2^bits.

*Proof.* arithmetic on the four widths.

*Outcome.* Integers are mathematical; the cast is modulo 2^bits. Empty arrays raise ValueError (C66_empty).

*Theorems.* `C66_int_downcast` (pcq), `C66_empty` (–)

### C67 — Float downcasting stays within tolerance (partial)

*Model.* float branch of `downcast` over abstract casts, bounds and errors.

*Proof.* induction over the search order.

*Outcome.* numpy casts, bounds and errors are abstract. False in general (C67_full_false): a cast within bounds may raise (RuntimeWarning as error, e.g. [-1., 2.**63]); zeros with NaN come back without the dict (C67_zero_with_nonfinite); nillable integers are never produced (C67_nillable_raises).

*Theorems.* `C67_first_fit_partial` (pq), `C67_within_tolerance` (p), `C67_zeros` (p), `C67_nothing_finite` (p), `C67_zero_with_nonfinite` (p), `C67_nillable_raises` (p), `C67_full_false` (p)

### C68 — check_and_drop_duplicate_columns rejects unequal duplicates (partial)

*Model.* `check_and_drop_duplicate_columns` on frames as lists of columns; null differs from itself.

*Proof.* list lemmas; counterexample.

*Outcome.* False (C68_full_false): a column is compared with itself, so unequal duplicates are dropped silently and equal ones with nulls raise. C68_drop_partial says exactly what happens.

*Theorems.* `C68_full_false` (p), `C68_drop_partial` (pq)

### C69 — extract_constants separates constant from varying columns (partial)

*Model.* `extract_constants` by rows.

*Proof.* list lemmas; counterexample with a null first cell.

*Outcome.* False in general (C69_full_false): the dict has the first row, which may be null in a constant column. Proved: classification, partition, and the value when the first cell is not null. how="columns" gives a dict by column (C69_columns_dict).

*Theorems.* `C69_full_false` (p), `C69_constants_partial` (pq), `C69_no_rows` (p), `C69_as_frame` (pq), `C69_columns_dict` (p)

### C70 — split_on is a partition of the rows (proved)

*Model.* `split_on` with label alignment.

*Proof.* list induction.

*Outcome.* Boolean predicates; alignment by label modelled for distinct labels.

*Theorems.* `C70_split_on` (pcq), `C70_unalignable` (pq)

### C71 — read_between returns exactly the rows in the half-open range (proved)

*Model.* `read_between` over row groups with statistics.

*Proof.* list induction; pruning by order lemmas.

*Outcome.* Values and bounds in one linear order; the columns argument is ignored by the code; a group of nulls raises TypeError (C71_null_group).

*Theorems.* `C71_read_between` (pcq), `C71_not_none` (pcq), `C71_null_group` (p)

### C72 — sort_chunked writes a sorted permutation of the input (partial)

*Model.* `sort_chunked`: linspace windows over an abstract or exact grid.

*Proof.* permutation and sortedness of concatenated windows; counterexamples in rounded arithmetic.

*Outcome.* False when max + 1 rounds to max (values from 2^53: C72_full_false) and for descending order (C72_descending_false); proved for any monotone grid otherwise, and for exact arithmetic (C72_exact).

*Theorems.* `C72_sort_chunked_partial` (pcq), `C72_one_chunk` (pcq), `C72_exact` (pcq), `C72_full_false` (pcq), `C72_descending_false` (pq)

### C73 — NestingDict.todict changes the NestingDict only in the class of its lower levels (proved)

*Model.* as C04, returning also the changed receiver.

*Proof.* structural induction.

*Outcome.* C73_todict_changes_self shows the documented modification on an example.

*Theorems.* `C73_todict_changes_self` (p), `C73_todict_keeps_contents` (pcq)

### C74 — A MaybePool can be reused for another map (partial)

*Model.* `MaybePool.map` twice on one pool.

*Proof.* `chunked` is never reset: counterexample; invariant otherwise.

*Outcome.* False after a chunked map (C74_chunked_flag_sticks); partial: holds after unchunked maps.

*Theorems.* `C74_reuse_unchunked_partial` (p), `C74_chunked_flag_sticks` (p)

### C75 — MaybePool.map computes every record of any iterable of records (partial)

*Model.* argument records as a list or as a one-shot iterator.

*Proof.* second pass over an exhausted iterator is empty.

*Outcome.* False for one-shot iterators (C75_generator_records_lost: always empty); partial covers lists.

*Theorems.* `C75_generator_records_lost` (pcq), `C75_list_records_partial` (pq)

### C76 — map_into_pool returns every result, and filter_exc removes exactly the exceptions (proved)

*Model.* `map_into_pool`.

*Proof.* from C17/C18.

*Theorems.* `C76_map_into_pool` (pcq), `C76_filter_exc_raising` (pq)

### C77 — filtern, naturals and catch_interaction (proved)

*Model.* `filtern`, `naturals`, `catch_interaction`.

*Proof.* list induction.

*Theorems.* `C77_filtern` (pcq), `C77_naturals` (p), `C77_catch_interaction` (–)

### C78 — A key left behind by a failed Notepad set cannot be deleted (proved)

*Model.* as C43, and later calls by any client.

*Proof.* symbolic execution; concrete notepad for the failing close.

*Outcome.* General for listing and del; the failing close is shown on a concrete notepad (C78_close_raises).

*Theorems.* `C78_phantom_key` (pcq), `C78_close_raises` (pcq)

### C79 — A Dynamic built from source does what the function its source defines does (partial)

*Model.* `compile_source`, `get_codechild`, `define` as a concrete instance of the compiler interface (`Model/Source.lean`): a source is a list of statements with their code objects; calling binds positional, keyword and default arguments.

*Proof.* induction over parameter lists; symbolic execution of construction and call; counterexample `def f(x=1): return x`.

*Outcome.* False (C79_full_false): default values are lost, so any call relying on one raises TypeError (C79_defaults_lost), and it is the first code object of the source that runs, e.g. a lambda in a default value or a decorator (C79_first_code_object). Proved for calls supplying every parameter when the function's is the first code object. A source without function: C79_no_function.

*Theorems.* `C79_source_partial` (pq), `C79_defaults_lost` (pcq), `C79_arguments` (pq), `C79_first_code_object` (p), `C79_no_function` (p), `C79_full_false` (pcq)

### C80 — A SlidingLock attempt that times out leaves nothing behind (proved)

*Model.* `wait` with `max_spins`, `__enter__` and `release` when not acquired (`Model/LockTimeout.lean`), and the transition system of C49 with an event for giving up.

*Proof.* induction on fuel for a blocked lock; the invariant of C50 extended to timeouts; finishing from C51.

*Outcome.* C80_timeout and C80_available on the programs run by one process, C80_many on the transition system with arbitrary timeouts.

*Theorems.* `C80_timeout` (pcq), `C80_available` (pcq), `C80_many` (pcq)

### C81 — max_spins bounds the waiting of each lock acquisition (partial)

*Model.* as C80; the model returns the value of `spins` after the attempt.

*Proof.* from C80_timeout; counterexample with one earlier wait.

*Outcome.* False (C81_full_false): spins is never reset, so the waits of earlier acquisitions count (C81_reused gives the exact number). Proved for a lock object that has not waited yet.

*Theorems.* `C81_fresh_partial` (pcq), `C81_reused` (pcq), `C81_full_false` (pcq)

### C82 — Mutual exclusion survives lock timeouts (partial)

*Model.* as C80.

*Proof.* the invariant of C49 (active slots contiguous above the count) preserved when the last slot is freed; counterexample schedule of four processes evaluated.

*Outcome.* False (C82_full_false): a timeout in the middle of the line frees a slot below a waiting one; the waiter sets no floor, a newcomer takes the free slot, looks only below it, and both are inside. Proved when only the last in line gives up.

*Theorems.* `C82_exclusion_partial` (pcq), `C82_full_false` (pq)

### C83 — Concurrent TagIndex calls take effect one after the other (partial)

*Model.* Scripts (Model/Clients.lean) run as interleaved programs of the index and lock model; the spec is `Legal` over a plain list (Spec/Linear.lean).

*Proof.* Simulation of the lock by the transition system of C49-C51 with a ghost history, extended by a client layer (LockPhase, LockSim, LockClients); each critical section is shown to do its list operation under interference on the lock blocks (RG, RGAdd, RGDel). Negation by the run of C53.

*Outcome.* Partial: for schedules in which no process makes a marker or lock block or uses the count block while another is between choosing its slot and making its lock block (the gap of C49). The full statement is refuted: both processes are told position 0. A client whose lock count overflows ends there.

*Theorems.* `C83_linearizable_partial` (pcq), `C83_full_false` (pcq)

### C84 — A MetaTagIndex is an ordered dictionary of optional metadata (proved)

*Model.* metaIndexInit, metaAdd, metaGet, metaDel, metaItems, metaKeys, metaValues over the shared memory model; spec `metaPlay` over a list of keys and a map.

*Proof.* Invariant MetaHolds (index blocks, value block i holds the metadata of key i, none beyond), kept by each call; induction on the history.

*Outcome.* Removals are for clients made with no_lockout=True; with the default lock they never return (C54). Metadata must encode to at least one byte and decode back. Fewer than 2^40 calls.

*Theorems.* `C84_metaindex_is_an_ordered_dictionary` (pcq)

### C85 — Notes at one address are one cell with remembered reads (proved)

*Model.* stickyInit/Note/Read/Stick/Close over the shared memory model; spec `stickyPlay`.

*Proof.* Invariant StickyHolds (block holds the encoded cell, notes hold what they remember), kept by each call; induction on the history.

*Theorems.* `C85_sticky_is_a_cell` (pq)

### C86 — A GridPaper store cut short (partial)

*Model.* gridSet and gridGet over the shared memory model; `Prog.crash E n` runs n primitive operations.

*Proof.* `Foot`: at every moment only the blocks of setBlocks may differ (footprints composed through bind, attempt and the lock); a key none of whose blocks differ reads as before. Negation by evaluating the run stopped after 9 operations.

*Outcome.* Other keys: proved. The key itself: false of the code. Between the creation of a new key's hash block (eight zero bytes, i.e. position 0) and the write to it, gp[newkey] silently gives the array of the first listed key; while overwriting, the old shape is read with a mixture of old and new bytes, then the key is missing, then its metadata cannot be decoded.

*Theorems.* `C86_crash_in_grid_set_partial` (pcq), `C86_wrong_arrays` (pcq), `C86_full_false` (pcq)

### C87 — A GridPaper deletion cut short (partial)

*Model.* gridDel and gridGet over the shared memory model; `Prog.crash E n`.

*Proof.* Invariant DelState over all moments: the key is listed with its metadata in place (array there or gone), or it is no longer listed; footprint delBlocks/delGone for the others. Negation by evaluating the run stopped after 15 operations.

*Outcome.* Proved for the deleted key and for every other key but the last one listed. For the last listed key it is false of the code: its position is changed before its metadata is moved, so in between a key nobody deleted raises KeyError, and then its metadata is a block of zeros.

*Theorems.* `C87_crash_in_grid_del_partial` (pcq), `C87_last_key` (pcq), `C87_full_false` (pcq)

### C88 — Sends to lists and dicts (proved)

*Model.* Composition model: performSend, placeInto, listSet, iterSteps, itercall.

*Proof.* An observable that steps and other sends leave alone and the send updates (`SendStores`): induction over the steps of a run and over the runs; then folding the update.

*Outcome.* The sending step's send is taken to be its last one: a later send that fails would keep the value in the list without the step's output being yielded.

*Theorems.* `C88_list_collects` (pq), `C88_list_replaces` (pcq), `C88_list_out_of_range` (pcq), `C88_dict_keeps_last` (pq)

### C89 — sort_chunked's inline_processor (proved)

*Model.* sortChunked, writeWindows (mosaic.py:122-173).

*Proof.* Induction over the windows, for all processors at once.

*Outcome.* The processor is a function from tables to tables that raises nothing.

*Theorems.* `C89_inline_processor` (pcq), `C89_row_by_row` (pcq)

### C90 — A process's own keys on a shared Notepad (proved)

*Model.* PadCall, PadScript over padGet, padSet, padDel, padKeys (implements.py:725-816).

*Proof.* Rely-guarantee: the others' programs touch only blocks and handles outside the process's own (Uses), so each own operation sees its blocks as its last one left them; induction over schedules and scripts.

*Outcome.* Keys do not begin with "index", their block names are accepted by the system, and the codec gives back what it encodes in at least one byte. What keys() gives, and when set and del raise because of the index, is left open.

*Theorems.* `C90_own_keys` (pcq)

### C91 — Reading a Notepad key that other processes set (proved)

*Model.* PadScript over padGet, padSet, padDel, padKeys; Prog.fine takes copies apart byte by byte (memutilz.py:5-27, codecs.py:77-109).

*Proof.* Ghost state: each segment is born for one name and one encoding and written only with it; Obeys is kept along schedules together with each process's record of calls.

*Outcome.* Bytes are copied in order; the creation of a block (with its size, filled with zeros) is one operation. C91_reader_may_miss shows the gaps on concrete schedules.

*Theorems.* `C91_no_mixture` (pcq), `C91_whole_values` (pcq), `C91_reader_may_miss` (pcq), `C91_reader_may_miss_whole` (pcq)

### C92 — downcast_df keeps rows together (partial)

*Model.* `downcast_df` on frames, with `castColumn` for one column and `concatColumns` for `pd.concat(axis=1)`.

*Proof.* Forall₂ between columns before and after; counterexample with rows labelled 1, 0.

*Outcome.* pandas.concat(axis=1) is written down in the model: equal labels are kept, otherwise rows are joined by label in order of appearance, and repeated labels raise.

*Theorems.* `C92_rows_mixed_up` (p), `C92_full_false` (p), `C92_downcast_df_partial` (pq), `C92_labels_lost` (pq), `C92_by_label` (pcq), `C92_repeated_label` (pcq), `C92_bare_array` (pq)

### C93 — squeeze keeps one value per label (partial)

*Model.* `squeezeFirst` and `squeezeBool`.

*Proof.* list lemmas over `duplicated`; mergeSort is a sorted permutation; counterexample with a null label.

*Outcome.* pivot_table is written down as grouping by label, sorted, without null labels. MultiIndex labels and a Series named like its index are not modelled.

*Theorems.* `C93_first` (pq), `C93_full_false` (pcq), `C93_any_partial` (pq)

### C94 — typed_columns selects by dtype (partial)

*Model.* `typedColumns`, `typedSeries`, `numericColumns`.

*Proof.* list lemmas; counterexamples.

*Outcome.* The regular expression is modelled for plain type names; df[names] gives for each name every column of that name.

*Theorems.* `C94_typed` (pcq), `C94_full_false` (pcq), `C94_numeric_partial` (pcq), `C94_series_disagrees` (pcq), `C94_repeated_names` (pcq)

### C95 — unique_to_records and junction give distinct rows (partial)

*Model.* `countedRows`, `uniqueToRecords`, `junction`.

*Proof.* list lemmas; counterexample with a null.

*Outcome.* value_counts is written down as: complete rows, once each, in some order. Values that are equal are the same value.

*Theorems.* `C95_junction` (pq), `C95_unique_partial` (pcq), `C95_full_false` (pq)

### C96 — dupe_df_block repeats rows (proved)

*Model.* `dupeBlock`.

*Proof.* induction over cells.

*Outcome.* dtypes are not modelled (`.values` makes one dtype of all columns).

*Theorems.* `C96_dupe` (pq)

### C97 — downcast's reported error is exact (partial)

*Model.* `Verif/Model/Floats.lean`: IEEE formats, rounding, casts, and the array `f64Arr` of which `downcast` (C67) asks.

*Proof.* the difference of a float64 and its truncation or rounding is a float64 (Sterbenz-like lemmas over ℚ); counterexample 2^40.

*Outcome.* Finite float64 numbers as rationals; casts truncate or round to nearest even. How bounds are compared is left open. Arrays of float32 and float16 are not modelled.

*Theorems.* `C97_errors_reported` (pcq), `C97_lossless` (pcq), `C97_cast_nearest` (pcq), `C97_smallest_partial` (pcq), `C97_smallest_full_false` (pcq)

### C98 — Trackers with the same log file (partial)

*Model.* `Verif/Model/SharedLog.lean`: `logStep`, `LogWorld.run`.

*Proof.* invariant over all schedules: whoever has the file open writes behind the documents; refinement of the one-step dump for serial schedules; three concrete schedules.

*Outcome.* Check, open, seek and raw writes are steps; files are inodes. C98_alone shows that without interference this is the one-step dump of C62.

*Theorems.* `C98_alone` (pq), `C98_intact` (pq), `C98_serial_partial` (pq), `C98_full_false` (pq), `C98_overlap_spoils` (pq), `C98_clear_loses` (pq)

### C99 — Arrays that GridPaper.get does not copy (partial)

*Model.* `Verif/Model/Views.lean`: `View`, `rememberView`, `gridView`, `gridViewD`.

*Proof.* a frame lemma for programs that reach a segment neither by name nor by handle (`uses_seg`); an invariant over histories that the segment is what `blockEnd` says (`playGrid_block`).

*Outcome.* A view is a handle on a segment with type and shape. Non-overlapping calls; deletions without lock (C54). Writes through a view replace all its bytes.

*Theorems.* `C99_get_now` (pcq), `C99_copy_of_get` (pcq), `C99_get_is_the_block` (pcq), `C99_shows_current` (pcq), `C99_write_reaches_all` (pcq), `C99_frozen_when_removed` (pcq), `C99_stays_partial` (pcq), `C99_full_false` (pcq)

### C100 — What the JSON codec keeps (partial)

*Model.* `Verif/Py/Lit.lean` (`PyVal`, `Floats`), `Verif/Model/Json.lean` (`dumps`, `loads`, `jsonCodec`); spec `Verif/Spec/Json.lean` (`jsonImage`, `JsonAble`, `JsonStable`).

*Proof.* induction on the value, for any text that may follow it and any layout: the scanner reads back what the encoder wrote (`reads_dumps`); `iff`s by induction on the value.

*Outcome.* The text of a finite float is abstract: any text of the shape float.__repr__ gives which reads back as the float. CPython's json encoder and decoder are modelled from their source; decoding of bytes that are not ASCII is left out, as the encoder makes none. Recursion limits are not modelled.

*Theorems.* `C100_encodes_iff` (pcq), `C100_errors` (pcq), `C100_ascii` (pcq), `C100_comes_back` (pcq), `C100_same_iff` (pcq), `C100_settles` (pcq), `C100_kept_by_notepads` (pcq), `C100_stable_partial` (pcq), `C100_followed` (pcq), `C100_full_false` (pcq)

### C101 — GridPapers with the JSON codec (proved)

*Model.* `Verif/Model/JsonMeta.lean`: `metaVal`, `metaOfVal`, `jsonMeta`.

*Proof.* C100 on the metadata dict, then C55.

*Outcome.* C55 without its assumption on the codec. Array data and dtype are abstract. Conditions on keys and locks as in C55.

*Theorems.* `C101_metadata_come_back` (pcq), `C101_arrays_survive` (pcq), `C101_gridpaper_with_json` (pcq)

### C102 — The log file of a Tracker, read as JSON (partial)

*Model.* `Verif/Model/TrackerJson.lean`: `docVal`, `jsonLog`, `readLog`, `sessionsFile`; spec `Verif/Spec/TrackerJson.lean`: `dumpedDocs`, `sessionDocs`.

*Proof.* an invariant that the file is `[`, texts each read as the image of a document, `]`; induction on the texts for the reader; an invariant for spoiled files.

*Outcome.* Trackers are used one after the other (overlapping dumps are C98). Values are read when dumped: a tracked list that the caller changes later is not modelled. Floats as in C100.

*Theorems.* `C102_file_is_json_partial` (pcq), `C102_none_raises` (pcq), `C102_spoiled_for_good` (pcq), `C102_same` (pcq), `C102_full_false` (pcq)

### C103 — What the AST codec keeps (partial)

*Model.* `Verif/Model/Ast.lean`: `strRepr`, `pyRepr`, `parseExpr`, `convert`, `literalEval`, `astCodec`; `Verif/Py/Utf8.lean`; spec `Verif/Spec/Ast.lean`: `Encodable`, `Sound`, `AllFinite`, `depth`, `IsWord`.

*Proof.* mutual structural induction: the parser reads what `repr` writes, whatever follows it, as the expression of the value; the expression evaluates to the value or raises.

*Outcome.* Modelled after CPython 3.11: `repr`, the part of the grammar `repr` writes, `ast.literal_eval`, UTF-8. Trusted: `repr` of a finite float is a numeral with a fraction or an exponent that reads back as the float; printable characters are code points other than surrogates. What `literal_eval` does with other texts is abstract. A set's order after decoding is that of the text.

*Theorems.* `C103_encodes_iff` (pcq), `C103_errors` (pcq), `C103_same_partial` (pcq), `C103_nan_raises` (pcq), `C103_strings_evaluated` (pcq), `C103_words_raise` (pcq), `C103_kept_by_notepads` (pcq), `C103_unhashable` (pcq), `C103_full_false` (pcq)

### C104 — scrape_subframe returns the numbers of the first SUBFRAME block (partial)

*Model.* `Verif/Model/Subframe.lean`: `Re.run`, `searchRe`, `findAll`, `evalNumerals`, `scrapeSubframe`; spec `Verif/Spec/Subframe.lean`: `IsBlock`, `NoBlock`, `Runs`, `GoodNumeral`.

*Proof.* induction on the text for the lazy and the greedy star and for the search; uniqueness of the block; induction on the runs.

*Outcome.* The regular expressions are modelled by a backtracking matcher. The full claim (always the tuple) is false: one number gives no tuple.

*Theorems.* `C104_block_or_none` (pcq), `C104_no_block` (pcq), `C104_numbers_partial` (pcq), `C104_one_number` (pcq), `C104_bad_numeral` (pcq), `C104_full_false` (pcq)

### C105 — What a scraped group becomes (proved)

*Model.* `Verif/Model/ScrapeAst.lean`: `astRegex`, `litResult`, on `scrape` of `Verif/Model/Scrape.lean` and `literalEval` of `Verif/Model/Ast.lean`.

*Proof.* from C103's lemmas on the parser and `literal_eval`.

*Outcome.* `literal_eval` as in C103; `re.search` is abstract. A group that is neither the text of a value as `repr` writes it nor a word is not covered.

*Theorems.* `C105_literals` (pcq), `C105_nan` (pcq), `C105_words` (pcq), `C105_none_ambiguous` (pcq)

### C106 — Deactivating the resource tracker keeps blocks in place (partial)

*Model.* `Verif/Model/ResTracker.lean`: `trackerCall`, `deactivate`, `trackerFeed` (the line protocol), `trackedStep`, `TEvent.step`, `TWorld.after`; spec `Verif/Spec/ResTracker.lean`: `DeactivatesFirst`, `AllDeactivateFirst`.

*Proof.* invariant over histories: the tracker's set is empty; `C106_late` and `C106_forgotten` follow the set through the events.

*Outcome.* The full claim is the docstring's (`blocks in use by that process`); it is false for blocks opened earlier.

*Theorems.* `C106_early_partial` (pcq), `C106_late` (pcq), `C106_forgotten` (pcq), `C106_full_false` (pcq)

### C107 — Ending a process that only reads removes nothing (partial)

*Model.* as C106, with `Prog.runIn`, `TWorld.perform` for a notepad's call in a process.

*Proof.* the tracker's pipe is held by the other process; for the reader, the registered name is followed to the end.

*Outcome.* The full claim is false; this is what the docstring of memutilz.py:57-98 warns about.

*Theorems.* `C107_one_tracker_partial` (pcq), `C107_reader_removes` (pcq), `C107_full_false` (pcq)

### C108 — No shared memory is left over (partial)

*Model.* as C106.

*Proof.* invariant: a block that exists was there at the start or is in the set of a tracker with a running process (`kept_tracked`).

*Outcome.* The full claim (any name) is false by the witness with a colon.

*Theorems.* `C108_no_leaks_partial` (pcq), `C108_colon_leaks` (pcq), `C108_full_false` (pcq)

### C109 — A notepad takes keys of any text (partial)

*Model.* as C106; `padSet`, `padGet`, `padDel`, `padKeys` run by `Prog.runIn`.

*Proof.* `runIn_patched` and `runIn_ascii` by induction on programs (an equality of behaviours, so all other theorems carry over); `C109_nonascii` by following the calls from `PadRep`.

*Outcome.* CPython 3.11 encodes the tracker's message as ASCII. The full claim is false.

*Theorems.* `C109_deactivated` (pcq), `C109_ascii_partial` (pcq), `C109_nonascii` (pcq), `C109_full_false` (pcq)

### C110 — Deactivating the tracker concerns shared memory only (partial)

*Model.* `Verif/Model/ResTracker.lean`: `trackerCall`, `deactivate`.

*Proof.* by computation from the definition.

*Outcome.* The full claim is false: the replacement functions refer to `self`, which does not exist (memutilz.py:88, 94).

*Theorems.* `C110_windows_partial` (pcq), `C110_others_raise` (pcq), `C110_full_false` (pcq)

### C111 — wrap_piped returns what the function returns, or the exception it raises (partial)

*Model.* `Verif/Model/Piped.lean`: `toSend`, `framed`, `awaited`, `unframed` (CPython's message format), `PipeStep`; spec `Verif/Spec/Piped.lean`: `StepsN`, `AlwaysEnds`.

*Proof.* invariant of the two processes, a measure that falls with every step, and the states where nothing can go on.

*Outcome.* The full claim is false by the deadlock: `proc.join()` comes before `here.recv()` (test_utils/core.py:85-86).

*Theorems.* `C111_result_partial` (pcq), `C111_size` (pq), `C111_deadlock` (pcq), `C111_same` (–), `C111_full_false` (pcq)

### C112 — wrap_piped ends when the child has ended (partial)

*Model.* as C111.

*Proof.* invariant of the states without a message (`DryInv`).

*Outcome.* The full claim is false.

*Theorems.* `C112_hang` (pq), `C112_answers_partial` (pcq), `C112_full_false` (pcq)

### C113 — A process from wrap_piped(block=False) can be joined (partial)

*Model.* as C111, started with the parent away.

*Proof.* as C111.

*Outcome.* The full claim is false.

*Theorems.* `C113_child_ends_partial` (pcq), `C113_child_stays` (pq), `C113_full_false` (pcq)

### C114 — smash labels each cell so that it can be found (partial)

*Model.* `Verif/Model/Smash.lean`: `smash`; spec `Verif/Spec/Smash.lean`: `CellsAt`, `AskedFor`, `underscored`.

*Proof.* positions in equally long lists put one after another; joined texts are injective when the first ones have no separator.

*Outcome.* The full claim is false (`C114_full_false`); entries and errors are proved without the condition.

*Theorems.* `C114_entries` (pcq), `C114_error` (pcq), `C114_lookup_partial` (pcq), `C114_full_false` (pcq)

### C115 — unpack puts lists into columns (proved)

*Model.* `Verif/Model/Smash.lean`: `unpack`.

*Proof.* directly; numerals are injective.

*Theorems.* `C115_unpack` (pq), `C115_names` (pcq)

### C116 — unpack_column replaces a column and nothing else (partial)

*Model.* `Verif/Model/Smash.lean`: `unpackColumn`, `setFrame`; spec `PartsOf`.

*Proof.* folding assignments of new columns; lookup by distinct labels.

*Outcome.* The full claim is false: the argument is changed (`C116_full_false`, `C116_overwrites`, `C116_repeated_label`).

*Theorems.* `C116_column_partial` (pcq), `C116_full_false` (pcq), `C116_overwrites` (pcq), `C116_repeated_label` (pcq), `C116_repeated_error` (pq)

### C117 — meta_column_df describes every column of a parquet file (partial)

*Model.* `Verif/Model/PqMeta.lean`, on the frames of `Model/Pivot.lean` and `Model/Tables.lean`; spec `Verif/Spec/PqMeta.lean`: `FileOK`, `told`, `BriefRow`.

*Proof.* the frame of the records column by column, its slices, constants, alignment of Series, renaming.

*Outcome.* The full claim is false: `record |= None` (mosaic.py:29).

*Theorems.* `C117_brief_partial` (pcq), `C117_no_statistics` (pcq), `C117_full_false` (pcq)

### C118 — meta_column_df counts values (partial)

*Model.* as C117.

*Proof.* from C117.

*Outcome.* The full claim is false for columns with nulls.

*Theorems.* `C118_num_values_partial` (pcq), `C118_full_false` (pcq)

### C119 — meta_column_df(extended=True) gives a table (partial)

*Model.* as C117; spec `ExtendedRow`.

*Proof.* as C117.

*Outcome.* The full claim is false (`C119_full_false`, `C119_twice`).

*Theorems.* `C119_extended_partial` (pcq), `C119_full_false` (pcq), `C119_twice` (pcq)

### C120 — random_nested_dict makes nested dicts with as many leaves as asked for (partial)

*Model.* `Verif/Model/RandomNest.lean` on the nesting dicts of `Model/Nesting.lean`; spec `Verif/Spec/RandomNest.lean`: `LeafAt`, `LastWrite`, `PlainLevels`.

*Proof.* invariant over rounds: leaves of the nest are the writes not overwritten since, levels are not empty.

*Outcome.* The full claim is false: repeated keys lose leaves (`C120_fewer`) or raise (`C120_crash`).

*Theorems.* `C120_result` (pcq), `C120_bounds` (pcq), `C120_exact_partial` (pcq), `C120_errors` (pcq), `C120_maxdepth_zero` (p), `C120_default_keytypes` (pq), `C120_crash` (p), `C120_crash_attribute` (p), `C120_fewer` (p), `C120_list_key` (p)

### C121 — get_label_text reads the beginning of a text (partial)

*Model.* `Verif/Model/Label.lean`: `labelText`, with the decoder of `Py/Utf8.lean`; spec `CutsAt`.

*Proof.* round trip and prefix-freedom of UTF-8.

*Outcome.* The full claim is false (`C121_full_false`).

*Theorems.* `C121_whole` (pcq), `C121_cut_partial` (pcq), `C121_split` (pcq), `C121_ascii` (pcq), `C121_full_false` (pcq)

### C122 — trim_label finds the end of a label before binary data (partial)

*Model.* `Verif/Model/Label.lean`: `labelTrim`; spec `EndsOnce`, `endLine`.

*Proof.* the ending is found in the bytes where it stands in the text, since ASCII bytes occur in UTF-8 only as themselves.

*Outcome.* The full claim is false (`C122_full_false`, `C122_unix`).

*Theorems.* `C122_trim_partial` (pcq), `C122_early` (pcq), `C122_full_false` (pcq), `C122_no_ending` (pcq), `C122_unix` (pcq)

### C123 — gmap calls a function once per row (proved)

*Model.* `Verif/Model/Gmap.lean`: `pullAll`, `mapLoop`, `gmap`, `triggerize`; spec `RowAt`, `leftAfter`.

*Proof.* induction on the length of the shortest iterable.

*Theorems.* `C123_gmap` (pcq), `C123_raises` (pq), `C123_stop_iteration` (pq), `C123_no_iterables` (p), `C123_triggerize` (–)

### C124 — get_from_all gets one value per mapping (proved)

*Model.* `Verif/Model/Gmap.lean`: `getFromAll`.

*Proof.* induction on the list of mappings.

*Theorems.* `C124_get_from_all` (pq), `C124_raises` (pq)

### C125 — Notepad.dump writes a value's bytes to a file (partial)

*Model.* `Verif/Model/Dump.lean`: `padDump` and `gridDump` on a map from names to bytes; opening may raise.

*Proof.* the representation of a notepad gives the block's bytes.

*Outcome.* The full claim (a failed dump leaves the file as it was) is false (`C125_full_false`).

*Theorems.* `C125_dump_partial` (pcq), `C125_absent` (pcq), `C125_name` (pq), `C125_unopened` (p), `C125_full_false` (pcq), `C125_grid` (pcq)

### C126 — close(dump=True) saves every value before it is deleted (partial)

*Model.* `Verif/Model/Dump.lean`: `padCloseDump`; spec `DumpsApart`.

*Proof.* induction over the keys listed: those behind are dumped and gone, those ahead untouched.

*Outcome.* The full claim is false (`C126_full_false`): "a.b" and "a_b" share a file.

*Theorems.* `C126_close_dump_partial` (pcq), `C126_full_false` (pcq), `C126_fake_index` (pcq)

### C127 — cleanup_on_exit removes notepads when a process ends (partial)

*Model.* `Verif/Model/AtExit.lean`: `runExit` (CPython's order of exit functions, with unregistering), `padCleanup`, `gridCleanup`, `stickyCleanup`.

*Proof.* induction from the client made last; closing one notepad leaves the representation of those apart from it.

*Outcome.* The full claim is false (`C127_full_false`, `C127_stale`, `C127_grid_hangs`).

*Theorems.* `C127_exit_partial` (pcq), `C127_fake_index` (pcq), `C127_grid_hangs` (pcq), `C127_two_clients` (pcq), `C127_full_false` (pcq), `C127_stale` (pcq), `C127_sticky` (pq)

### C128 — MaybePool.map gives one result per record (partial)

*Model.* `Verif/Model/PoolRecs.lean`: records as objects, `Recs.fillAll`, on `Model/Pool.lean`; spec `FirstAt`.

*Proof.* induction over calls and lists; results through C17.

*Outcome.* The full claim is false (`C128_full_false`, `C128_same_record`): records of two lists, mapped together later, collide.

*Theorems.* `C128_keys` (pq), `C128_results_partial` (pcq), `C128_fresh_partial` (pcq), `C128_reuse` (p), `C128_full_false` (p), `C128_same_record` (p)

### C129 — The counters of a MaybePool bound its progress (proved)

*Model.* `Verif/Model/PoolReady.lean`: each question to a result has its own time; spec `Stays`, `Asked`, `readyNow`.

*Proof.* induction over the results, with readiness monotone in time.

*Theorems.* `C129_counts` (pcq), `C129_progress` (pcq), `C129_ready` (pcq), `C129_results_ready` (pq), `C129_in_process` (pq), `C129_chunked` (pcq), `C129_terminate` (p)

### C130 — Trackers with different names have different log files (partial)

*Model.* `Verif/Model/TrackerPath.lean`: pathlib's parsing (`splitRoot`, `splitSlash`), `logPath`, and several Trackers on one disk (`fleetRun`).

*Proof.* splitting at the first underscore; induction over the history.

*Outcome.* The full claim is false (`C130_full_false`, `C130_none`, `C130_outside`).

*Theorems.* `C130_path_partial` (pcq), `C130_distinct_partial` (pcq), `C130_names_partial` (pcq), `C130_underscore` (pcq), `C130_none` (pcq), `C130_full_false` (pcq), `C130_outside` (pcq), `C130_below` (pcq), `C130_fleet` (pcq)

### C131 — exc_report describes the traceback; dontcare swallows and reports (partial)

*Model.* `Verif/Model/ExcReport.lean`: `excReport`, `dontcareReport`; spec `EntryFor`.

*Proof.* induction over the traceback.

*Outcome.* The full claim is false (`C131_full_false`).

*Theorems.* `C131_report` (pq), `C131_none` (–), `C131_dontcare_partial` (pq), `C131_no_text` (p), `C131_full_false` (pcq)

### C132 — digsource finds the source of what is wrapped (partial)

*Model.* `Verif/Model/ExcReport.lean`: `getSource`, `digsource`, `mkPartial`; spec `Text`, `Plain`.

*Proof.* induction over the wrapping.

*Outcome.* The full claim is false (`C132_full_false`).

*Theorems.* `C132_digsource_partial` (p), `C132_dynamic_source` (–), `C132_partial_dynamic` (p), `C132_full_false` (pcq)

### C133 — A Dynamic as a step of a Composition (partial)

*Model.* `Verif/Model/CompDyn.lean`: the Dynamic is part of the world of the pipeline; `dynStep` (as the Composition calls it) against `lambdaStep`.

*Proof.* runs depend on the list of steps only (`execute_withSteps`); the steps before leave the Dynamic alone.

*Outcome.* The full claim is false (`C133_full_false`, `C133_raises`, `C133_unloaded`).

*Theorems.* `C133_loaded_partial` (pcq), `C133_raises` (pcq), `C133_unloaded` (pcq), `C133_full_false` (pcq)

### C134 — A Composition may stand for its steps in another (partial)

*Model.* `Verif/Model/CompNest.lean`: `compStep`; the relation `Flattens` in `Verif/Props/CompNest.lean` says which pipeline is meant by that with the steps in place.

*Proof.* simulation of runs (`iterSteps_sim`): the two Compositions go on corresponding, since sends change only inserts.

*Outcome.* The full claim is false (`C134_full_false`, `C134_empty`, `C134_optional`).

*Theorems.* `C134_run_partial` (pcq), `C134_runs_partial` (pcq), `C134_empty` (pcq), `C134_optional` (pcq), `C134_keyword` (pcq), `C134_too_many` (pcq), `C134_insert` (pcq), `C134_full_false` (pcq)

### C135 — Compositions made separately are independent (partial)

*Model.* `Verif/Model/CompHeap.lean`: steps, sends and inserts are objects on a heap; `objectsRun` against `valuesRun` (the model of C26-C33). The theorem is what justifies that model's Compositions being values.

*Proof.* refinement with a frame (`Became`), by induction over the history.

*Outcome.* The full claim is false (`C135_full_false`, `C135_run_leaks`, `C135_mapping_shared`).

*Theorems.* `C135_independent_partial` (pq), `C135_made_partial` (pq), `C135_mapping_shared` (pq), `C135_given_mapping` (pq), `C135_given_sequence` (pq), `C135_run_leaks` (pcq), `C135_full_false` (pcq)

### C136 — The pickle codec gives the value back, with its sharing and cycles (proved)

*Model.* `Verif/Model/Pickle.lean`: `save`, `framer`, `dumpsP`, `readOp`, `runP`, `loadsP` after CPython 3.11 `pickle.py`, at protocol 5, on heaps of None, booleans, integers, floats, strings, bytes, tuples, lists and dicts. `SameGraph` in `Verif/Spec/Pickle.lean` is an isomorphism of what can be reached.

*Proof.* the opcodes rebuild the graph (`save_graph`: simulation of the unpickler against the memo of the pickler, `Good`); each opcode is read back from its bytes across frame borders (`readOp_rdr`, `framer_run`).

*Theorems.* `C136_round_trip` (pcq), `C136_bytes` (pq), `C136_keys` (pcq), `C136_round_trip_from` (pcq)

### C137 — A pickle that was not wholly written is never taken for a value (proved)

*Model.* `Verif/Model/Pickle.lean`: `save`, `framer`, `dumpsP`, `readOp`, `runP`, `loadsP` after CPython 3.11 `pickle.py`, at protocol 5, on heaps of None, booleans, integers, floats, strings, bytes, tuples, lists and dicts. The Notepad as in C39 and C48.

*Proof.* in what is left no opcode can be completed: a run on a prefix agrees with that on the whole (`torn`) until it meets a zero or the end (`dead_run`); together with C48.

*Theorems.* `C137_torn` (pcq), `C137_crash_in_set` (pcq)

### C138 — The same value has the same pickle, and a Notepad with the default codec is a dictionary of values (proved)

*Model.* `Verif/Model/Pickle.lean`: `save`, `framer`, `dumpsP`, `readOp`, `runP`, `loadsP` after CPython 3.11 `pickle.py`, at protocol 5, on heaps of None, booleans, integers, floats, strings, bytes, tuples, lists and dicts. The Notepad as in C39.

*Proof.* `save` makes the same opcodes of two graphs that are the same (`save_same`); with C136 and C39 (`stepPad` depends on the encoding only).

*Theorems.* `C138_same_bytes` (pcq), `C138_again` (pcq), `C138_notepad` (pcq)

### C139 — How deep a value may be for the pickle codec (proved)

*Model.* `Verif/Model/Pickle.lean`: `save`, `framer`, `dumpsP`, `readOp`, `runP`, `loadsP` after CPython 3.11 `pickle.py`, at protocol 5, on heaps of None, booleans, integers, floats, strings, bytes, tuples, lists and dicts. `lim` is the depth to which `save` may call itself.

*Proof.* induction over the depth left, with the number of objects not yet memoized and a rank of tuples (`save_deep`); `nest_fails`.

*Theorems.* `C139_errors` (pq), `C139_deep_enough` (pcq), `C139_too_deep` (pq)

### C140 — dig_and_edit on mappings that are in several places or in themselves (partial)

*Model.* `Verif/Model/MapHeap.lean`: a mapping is an object at an address with a class and items, a value is plain or an address; `fuel` is the depth of recursion allowed. `digEditH` (structures.py:268-279).

*Proof.* the heap after a call is the heap before with entries edited `count` times along `Visits` (induction on fuel and on the list of nests); a cycle has no finite list of visits.

*Outcome.* Full claim false (`C140_full_false`: a shared mapping's entry goes from 1 to 3).

*Theorems.* `C140_once_per_path` (pcq), `C140_returns` (pcq), `C140_cycle` (pcq), `C140_once_partial` (pcq), `C140_as_tree_partial` (pcq), `C140_full_false` (pq)

### C141 — NestingDict.todict on shared and cyclic NestingDicts (proved)

*Model.* `Verif/Model/MapHeap.lean`: a mapping is an object at an address with a class and items, a value is plain or an address; `fuel` is the depth of recursion allowed. `todictH` (structures.py:80-88) over `digEditH`.

*Proof.* refinement of the tree model (`todict`, C73) along `Unf`; the addresses written are those of dicts that are no NestingDict, and `self`.

*Theorems.* `C141_result` (pcq), `C141_effects` (pcq), `C141_cycle` (pcq)

### C142 — rmerge does not change its arguments, and shares with them what it does not merge (partial)

*Model.* `Verif/Model/MapHeap.lean`: a mapping is an object at an address with a class and items, a value is plain or an address; `fuel` is the depth of recursion allowed. `rmergeH` (structures.py:295-312).

*Proof.* loop invariant `MergeInv` and postcondition `MergePost` (old part unchanged, new part above, each new dict held once), `Merged` is well-founded for the cycles (`Merged.acc`).

*Outcome.* Full claim false (`C142_full_false`).

*Theorems.* `C142_inputs_unchanged` (pcq), `C142_shares` (pcq), `C142_made_once` (pcq), `C142_as_tree` (pcq), `C142_returns` (pcq), `C142_cycle` (pcq), `C142_apart_partial` (pcq), `C142_full_false` (pq)

### C143 — How many mergers rmerge makes (partial)

*Model.* `Verif/Model/MapHeap.lean`: a mapping is an object at an address with a class and items, a value is plain or an address; `fuel` is the depth of recursion allowed. Each call of `rmergeH` makes one dict, so the growth of the heap is the number of calls.

*Proof.* the sum of costs over `chain(map1.items(), map2.items())` counts every common key twice (`keyCost_sum`, by permutation of the common keys); induction on the depth.

*Outcome.* Full claim false (`C143_full_false`: three dicts for two pairs).

*Theorems.* `C143_calls` (pcq), `C143_doubles` (pcq), `C143_bounds_partial` (pcq), `C143_full_false` (pq)

### C144 — MaybePool.map of functions that change their arguments (partial)

*Model.* `Verif/Model/PoolArgs.lean`: a function takes the heap and a reference and gives a reference and a heap; `sent` pickles and unpickles; `callAll`, `poolCall`, `chunkCall`, `mapObjects` (structures.py:341-423).

*Proof.* an invariant over the calls of a chunk (no call disturbs what the later arguments or earlier results lead to, `modes_agree`), carried over the bijection of `SameGraph`; `C136_round_trip_from` extends C136 to heaps of which only the part reached is well formed.

*Outcome.* Full claim false (`C144_full_false`). Exceptions of the function itself are left to C17 and C18.

*Theorems.* `C144_changes_none_partial` (pq), `C144_apart_partial` (pq), `C144_callers_objects` (p), `C144_callers_constants` (p), `C144_full_false` (pcq)

### C145 — Reading a Sticky while others stick and close it (partial)

*Model.* `Verif/Model/Bytewise.lean`: `BProg` (programs with single byte copies), `Prog.bytewise` over stickyStick, stickyRead, stickyClose; processes with an object each and a plan, `noteRun`.

*Proof.* a predicate on programs (`Minds`) that they use only this block and put into it only what may be there, kept by every operation; the set of values begun is taken at the end of the run and grows along it.

*Outcome.* Full claim false (`C145_half_of_each_witness`, `C145_half_read_witness`). All Stickies considered have one address.

*Theorems.* `C145_blends_partial` (pcq), `C145_uninterrupted` (pcq), `C145_pickles` (pcq), `C145_half_of_each_witness` (pcq), `C145_half_read_witness` (pcq)

### C146 — Reading keys of a Notepad that others set, values pickled (partial)

*Model.* padGet, padSet, padDel, padKeys with `pickleCodec` (Verif/Model/Pickle.lean); `Prog.fine` for the witness.

*Proof.* C91 (whole values), C136 (round trip) and that zeros do not load.

*Outcome.* Full claim false (`C146_half_read_witness`). What holds byte by byte is C91.

*Theorems.* `C146_values_partial` (pcq), `C146_half_read_witness` (pcq), `C146_whole_read` (pcq)

### C147 — What a tracked Composition notes after edits (partial)

*Model.* `Verif/Model/CompTrack.lean`: `trackOn`, `CompEdit`, `editComp` over the Composition model.

*Proof.* an invariant kept by every edit: steps as filed, and the sends of each name make the records filed under it, in order; induction on sends, steps and edits.

*Outcome.* Full claim false (`C147_replaced`, `C147_reindexed`, `C147_one_each_full_fails`).

*Theorems.* `C147_log` (pcq), `C147_failure` (pcq), `C147_one_each_partial` (pcq), `C147_replaced` (p), `C147_reindexed` (p), `C147_one_each_full_fails` (p)

### C148 — Editing a Composition while it is iterated over (partial)

*Model.* `Verif/Model/CompGen.lean`: `CompGen` (a generator: not begun, running with the names to come, over), `genNext`, `genStep`, `genRun`; `reindex` leaves the generator with the old mapping.

*Proof.* induction on what is done between outputs; the number of keys of the generator's own mapping grows exactly when a step is added under a new name.

*Outcome.* Full claim false (`C148_added_witness`, `C148_reindexed_witness`, `C148_again_witness`, `C148_full_fails`). Steps that edit the Composition they are in are not modelled.

*Theorems.* `C148_first` (pq), `C148_next` (pcq), `C148_over` (pcq), `C148_as_it_is_partial` (pcq), `C148_added_witness` (p), `C148_reindexed_witness` (p), `C148_again_witness` (p), `C148_full_fails` (p)

### C149 — Several iterations over one Composition (partial)

*Model.* as for C148.

*Proof.* the Composition stays the same; induction on the operations, the remaining steps of the iteration being the tail of the mapping.

*Outcome.* Full claim false (`C149_mixed_witness`, `C149_full_fails`).

*Theorems.* `C149_alone_partial` (pcq), `C149_mixed_witness` (pcq), `C149_full_fails` (pcq)

### C150 — Claiming keys of a shared Notepad (partial)

*Model.* padSet, padDel, padGet, padKeys with the lock programs; `PadScript.run` and `PadScript.Plays` (Verif/Model/Claims.lean); `LegalClaims`, `ClaimLegal` (Verif/Spec/Claims.lean).

*Proof.* rely-guarantee with ownership that moves: the blocks a process owns are computed from its own calls on the index, in an order shown by the lock simulation of C83 (`clients`); ownership is disjoint because the calls are legal (`story`), and a block changes hands only while it does not exist (`handover`).

*Outcome.* Full claim false (`C150_both_win`, `C150_full_false`; `C150_no_lockout` without a lock). An OverflowError of the lock ends a process.

*Theorems.* `C150_claims_partial` (pcq), `C150_one_winner_partial` (pcq), `C150_both_win` (pcq), `C150_full_false` (pcq), `C150_no_lockout` (pcq)

### C151 — A key of a shared Notepad as a mutex (partial)

*Model.* padSet, padDel, padGet, padKeys with the lock programs; `PadScript.PlaysBy` (Verif/Model/Sections.lean); `LegalSects`, `SectLegal` (Verif/Spec/Sections.lean).

*Proof.* the ownership proof of C150 extended: the history of index calls carries the values set meanwhile, a block that nobody owns has the content that the history assigns to it (`CSim`, `asLeft`), and passes to the next owner with it (`handover`); the counter by induction over the ordered events (`counted`).

*Outcome.* Full claim false (`C151_update_lost`, `C151_full_false`). An OverflowError of the lock ends a process.

*Theorems.* `C151_sections_partial` (pcq), `C151_counter_partial` (pcq), `C151_update_lost` (pcq), `C151_full_false` (pcq)

### C152 — Processes that share a GridPaper (partial)

*Model.* gridSet, gridGet, indexUpdate with the lock programs, operation by operation; `GpScript` (Verif/Model/GridClients.lean); `GpStep`, `GpLegal` (Verif/Spec/GridClients.lean).

*Proof.* the ownership proof of C150 with a rely condition on the index as well: an entry of the index stays where it is and keeps its value unless its owner adds it again (`gRel`, `gridSetup`), and each body touches only the blocks of its slot (`wrg_metaBody`); a reader relies on three blocks only (`lrg_gridGet_some`), which `rg_inv` keeps fixed; then induction over the script (`grid_crg`).

*Outcome.* Full claim false (`C152_other_array`, `C152_full_false`); `C152_foreign_read`: a key of another process may be read half-replaced. An OverflowError of the lock ends a process.

*Theorems.* `C152_shared_gridpaper_partial` (pcq), `C152_other_array` (pcq), `C152_full_false` (pcq), `C152_foreign_read` (pcq)

### C153 — Listing a TagIndex while other processes add keys (partial)

*Model.* indexUpdate, indexAdd, indexRemove with the lock programs, operation by operation; `LsScript` (Verif/Model/ListClients.lean); `LsStep`, `LsSeen`, `IsBlank` (Verif/Spec/ListClients.lean).

*Proof.* rely-guarantee: every step of every process, inside the lock or not, keeps the index tidy (`Tidy`: the length field counts slots that hold a key, or the last of them none or zeros) and only grows it (`Grow`, `grow_indexAdd`), which is kept as a relation between any two moments (`Setup.ever`); what a process has seen (`HasSeen`) survives growth; a listing is walked slot by slot against this rely (`rg_enumerate`); then induction over the script (`ls_crg`).

*Outcome.* Full claim false (`C153_skips`, `C153_blank`, `C153_full_false`). The partial is for processes that only add keys, without two processes in the doorway of the lock at once, and allows for the entry of zeros. Keys that consist of NULs only are excluded. An OverflowError of the lock ends a process.

*Theorems.* `C153_listing_partial` (pcq), `C153_listing_has_partial` (pcq), `C153_blank` (pcq), `C153_skips` (pcq), `C153_full_false` (pcq)

### C154 — dig functions and exceptions of the predicate (partial)

*Model.* `digFor`, `digForNests`, `digForAll` (Verif/Model/Nested.lean); `levels`, `hits`, `Returns`, `Misses` (Verif/Spec/DigRaise.lean).

*Proof.* structural induction: `dig_for_all` is a run over the concatenated levels (`digForAll_eq`), `dig_for` without StopIteration a run level by level (`digFor_eq`).

*Outcome.* Full claim false (`C154_swallowed`); exactly what `StopIteration` does is in `C154_stop_ends_the_search` and `C154_stop_only_at_top`. The partial is for predicates that raise anything else. Nested mappings are trees (no sharing).

*Theorems.* `C154_all_returns` (pq), `C154_all_raises` (pq), `C154_first_partial` (pcq), `C154_stop_only_at_top` (p), `C154_stop_ends_the_search` (pcq), `C154_swallowed` (p)

### C155 — dig_and_edit with functions that raise (partial)

*Model.* `matchesX`, `setAllX`, `nestsX`, `digEditX` (Verif/Model/DigRaise.lean); `PartEdit`, `WholeEdit` (Verif/Spec/DigRaise.lean).

*Proof.* induction on the depth of the recursion; for a level, induction on its items with the assignments commuting past other keys (`setAllX_skip`, `setAllX_spec`), then on the nests (`nestsX_spec`).

*Outcome.* Full claim false (`C155_not_all_or_nothing`). Nested mappings are trees (shared and cyclic ones: C140). With functions that never raise it is the `dig_and_edit` of C09 (`C155_no_exceptions`).

*Theorems.* `C155_edit_partial` (pq), `C155_filter_raises` (p), `C155_stop_iteration` (pq), `C155_no_exceptions` (pq), `C155_not_all_or_nothing` (p)

### C156 — creating a block is not one step (partial)

*Model.* `Proc`, `Proc.step`, `interleave2`, `begun` (Verif/Model/TwoStep.lean) run the programs of Verif/Model/{Memutilz,Notepad}.lean; `Handles`, `Unnoticed`, `SameButHalf` (Verif/Spec/TwoStep.lean).

*Proof.* simulation `Two` between the split and the whole run (Verif/Lemmas/TwoStep.lean), by induction on the schedule; that `open_block` never raises ValueError in whole steps is an invariant of programs (`NoVE`).

*Outcome.* Full claim false (`C156_full_false`, `C156_notepad_get`, `C156_left_empty`). `ftruncate` with the creator's own `mmap` is one step, and so are `fstat` and `mmap` of an opening process.

*Theorems.* `C156_refines_partial` (pq), `C156_ended_partial` (pq), `C156_full_false` (pcq), `C156_notepad_get` (pcq), `C156_left_empty` (pcq)

### C157 — calls on a TagIndex when creating a block is not one step (partial)

*Model.* `IxScript` (Verif/Model/Clients.lean) run by `interleave2` (Verif/Model/TwoStep.lean); `Linearised2` (Verif/Lemmas/TwoStepIndex.lean), `Unnoticed` (Verif/Spec/TwoStep.lean).

*Proof.* invariant `Lk` (Verif/Lemmas/TwoStepLock.lean) couples the split run with the lock simulation of the whole run: a block outside the lock that is half made belongs to the only process inside the lock, so nobody else opens it; hence `Unnoticed`, and C83 carries over by C156.

*Outcome.* Full claim false (`C157_full_false`: first use of the lock). `ftruncate` with the creator's `mmap` is one step (C156). Doorways as in C83.

*Theorems.* `C157_linearizable_partial` (pcq), `C157_unnoticed_partial` (pcq), `C157_full_false` (pcq)

### C158 — the blocks that np.get gives with fetch=False (proved)

*Model.* `padBlock`, `padBlockD`, `blockWrite` (Verif/Model/Views.lean); `lost` (Verif/Spec/PadBlocks.lean).

*Proof.* `HoldsBlock` says which name, if any, leads to the segment; each call of the notepad keeps its bytes (Verif/Lemmas/PadBlocks.lean, `uses_*` lemmas), and it loses the name exactly when `NoteCall.drops`; `PadRep.poke` for writes.

*Outcome.* A client's block stays mapped until the caller drops it. Writes happen between the calls of others.

*Theorems.* `C158_block_now` (pcq), `C158_snapshot` (pcq), `C158_write_sets` (pcq), `C158_stale_write` (pcq)

### C159 — the blocks that gp.get gives with fetch=False (partial)

*Model.* `gridBlock`, `gridBlockD` (Verif/Model/Views.lean).

*Proof.* the representation of C55 gives the metadata and block of every present key; the run is computed up to the unpacking.

*Outcome.* Full claim false (`C159_full_false`).

*Theorems.* `C159_raises_partial` (pcq), `C159_full_false` (pcq)

### C160 — notepads without an index (FakeIndex) (proved)

*Model.* `padInitFake` (Verif/Model/FakePad.lean) and the methods of Verif/Model/Notepad.lean on a pad with index `.fake`; `fakeAnswer`, `fakeNext` (Verif/Spec/FakePad.lean).

*Proof.* `stepFake_spec`: each call keeps `FakeRep` (the blocks are those of the dictionary) and answers `fakeAnswer`; induction over the calls.

*Outcome.* Calls are made one after the other (for processes see C161).

*Theorems.* `C160_dictionary` (pcq), `C160_open_close` (pcq)

### C161 — processes sharing a notepad without an index (partial)

*Model.* the programs of C160, interleaved (`interleave`, Verif/Model/Shm.lean); `plainStep`, `PlainLegal` (Verif/Spec/FakePad.lean).

*Proof.* rely-guarantee: `prg_plain` for each call while others stay off the process's blocks; `private_run` (Verif/Lemmas/Private.lean) for the interleaving; the witness is a run of two claims.

*Outcome.* Full claim false (`C161_full_false`). Values that a process sets can be encoded.

*Theorems.* `C161_own_keys_partial` (pcq), `C161_full_false` (pcq)

### C162 — notepads with metadata (MetaTagIndex) (proved)

*Model.* `metaPadSet`, `metaPadDel`, `metaPadClear` (Verif/Model/MetaPad.lean) on the index of C84; `tagPadAnswer` (Verif/Spec/MetaPad.lean).

*Proof.* `TagPadRep` joins the representation of C84 to the blocks of the values; `runTagPad_ok` for each call, induction over the calls (Verif/Lemmas/MetaPad.lean).

*Outcome.* Calls do not overlap in time.

*Theorems.* `C162_dictionary` (pcq), `C162_set_get` (pq), `C162_stale_note` (pq)

### C163 — closing notepads with metadata (partial)

*Model.* `metaPadClose` (Verif/Model/MetaPad.lean).

*Proof.* `tagPadDels_noted`: removing all keys succeeds if each has metadata; `run_padIndexClose` for the index; `C163_close_raises` for the failure.

*Outcome.* Full claim false (`C163_full_false`).

*Theorems.* `C163_close_partial` (pcq), `C163_close_raises` (pcq), `C163_full_false` (pcq)

### C164 — decorated functions as steps of a Composition (partial)

*Model.* `Deco.calling`, `wraps`, `decorate` (Verif/Model/Wrappers.lean), with the attributes `func`, `args`, `keywords` of `__dict__`.

*Proof.* Induction over the decorators (`decorate_attrs`), `execute_withSteps` for the run; `C164_bypassed` and `C164_unloaded` say what happens with Dynamics that have been loaded.

*Outcome.* Full claim false (`C164_full_false`).

*Theorems.* `C164_as_called_partial` (pcq), `C164_bypassed` (pcq), `C164_unloaded` (pcq), `C164_triggerize` (pcq), `C164_trigger_alone` (pcq), `C164_splat` (pcq), `C164_argstop` (pcq), `C164_never_fails` (pcq), `C164_full_false` (pcq)

### C165 — functions that pass their arguments on (partial)

*Model.* `passParameters`, `catchInteractionFn`, `constantFn`, `zeroFn` (Verif/Model/Wrappers.lean).

*Proof.* By cases on the keywords.

*Outcome.* Full claim false (`C165_full_false`).

*Theorems.* `C165_pass_parameters_partial` (pcq), `C165_catch_interaction_partial` (pcq), `C165_default` (pcq), `C165_constant` (p), `C165_full_false` (pcq)

### C166 — notepads used with and without an index (partial)

*Model.* `padSet`, `padGet`, `padDel`, `padKeys`, `padItems`, `padClear` (Verif/Model/Notepad.lean) with both kinds of index; `playMix` runs a history.

*Proof.* Refinement call by call (`runMix_ok`) to the two-part state of Verif/Spec/MixPad.lean, then induction over the history; the part that holds by an invariant (listed iff it has a value).

*Outcome.* Full claim false (`C166_full_false`).

*Theorems.* `C166_histories` (pcq), `C166_set_get` (p), `C166_removed_with_error` (p), `C166_refused_and_listed` (p), `C166_stuck` (pcq), `C166_careful_partial` (pcq), `C166_full_false` (pcq)

### C167 — closing a notepad used with and without an index (partial)

*Model.* `padClose`, `indexClose` (Verif/Model/Notepad.lean, Verif/Model/Index.lean).

*Proof.* `mixDels_all`, `mixDels_stuck` by induction over the list of keys, then the blocks that `indexClose` removes (`run_mixIndexClose`).

*Outcome.* Full claim false (`C167_full_false`).

*Theorems.* `C167_close_partial` (pcq), `C167_close_raises` (pcq), `C167_full_false` (pcq)

### C168 — the life of a MaybePool (partial)

*Model.* `LifePool` (Verif/Model/PoolLife.lean): a `Pool` of Verif/Model/Pool.lean with the state of the `multiprocessing.Pool`.

*Proof.* Induction over the calls (`life_from`), with the results of a `map` from C17 and C18.

*Outcome.* Full claim false (`C168_full_false`).

*Theorems.* `C168_life_partial` (pcq), `C168_refused` (pq), `C168_join_running` (p), `C168_spoiled` (p), `C168_full_false` (pq)

### C169 — sends and inserts for names that are not steps (proved)

*Model.* `CompEdit` of Verif/Model/CompTrack.lean; `outcomes` (Verif/Spec/CompIdle.lean): what the runs give.

*Proof.* A simulation between Compositions that agree on the names of steps (`AgreeOn`), for every operation.

*Theorems.* `C169_idle` (pq), `C169_runs` (pcq)

### C170 — wiring a step before it is there (partial)

*Model.* As for C169.

*Proof.* Each send or insert commutes with `add_step` (`wiring_swap`); induction over the list.

*Outcome.* Full claim false (`C170_full_false`).

*Theorems.* `C170_order_partial` (pq), `C170_full_false` (pcq)

### C171 — the views of a Composition (partial)

*Model.* `stepIndex`, `functionNames`, `checkForStep` (Verif/Model/CompViews.lean); `rowEdits` (Verif/Spec/CompIdle.lean).

*Proof.* Induction over the edits.

*Outcome.* Full claim false (`C171_full_false`).

*Theorems.* `C171_index` (pcq), `C171_run_follows_index` (p), `C171_function_names_partial` (pq), `C171_function_names_raises` (p), `C171_full_false` (pcq), `C171_check` (pcq)

### C172 — steps that edit the Composition they are in (partial)

*Model.* `selfExecute` (Verif/Model/CompSelf.lean): a run in which each step does a list of edits; without edits it is `execute` (`C172_plain`).

*Proof.* Induction over the names to come; the names stay those of the beginning (`edits_keys`, from C171).

*Outcome.* Full claim false (`C172_full_false`). Steps that run their own Composition are not modelled.

*Theorems.* `C172_plain` (pq), `C172_next_is_as_now` (pcq), `C172_completes_partial` (pcq), `C172_grown` (pq), `C172_full_false` (pcq), `C172_blames_uncalled` (pcq), `C172_reindexed` (p), `C172_reindexed_lost` (pcq), `C172_noted` (p)

### C173 — nobody waits for ever for a SlidingLock (partial)

*Model.* `endless`, `Fair` (Verif/Spec/LockFair.lean): endless runs of the transition system of C49-C52.

*Proof.* A weight of all processes that never grows and shrinks when a critical section with a slot below N ends (`weight_next`); it settles, so from some time on no lower slot is inside; the process with the lowest slot then finds no lock block in its way (`locks_clear`, `gets_inside`). The witness is periodic: nine operations take each round to the next (`round_rest`).

*Outcome.* Full claim false (`C173_full_false`, `C173_starved`). Processes that die or time out are in C52 and C80-C82.

*Theorems.* `C173_full_false` (pcq), `C173_starved` (pcq), `C173_slot_then_inside_partial` (pcq), `C173_someone` (pcq), `C173_overtaken` (pcq)

### C174 — how often a SlidingLock can be used (partial)

*Model.* `withLock` (Verif/Model/Index.lean), with the five bytes of the count block.

*Proof.* Induction over the uses, each by `run_lockEnter_any` and `run_lockRelease`; the state after the overflow is `Blocked`, from which nobody enters (C80, `run_withLock_blocked`).

*Outcome.* Full claim false (`C174_full_false`). One use after the other; with contention C49-C52.

*Theorems.* `C174_use` (pcq), `C174_many_partial` (pcq), `C174_last` (pcq), `C174_dead` (pcq), `C174_index` (pcq), `C174_full_false` (pcq)

### C175 — SlidingLock objects, and closing them (partial)

*Model.* `lifeStep`, `lifeRun`, `lockClose` (Verif/Model/LockLife.lean); `lockEnterOn` is the second part of `lockEnter`.

*Proof.* Invariant `LifeInv`: the objects that may be used have the count block that has the name, and at most one holds the lock. Uses `run_lockEnter`, `run_lockRelease`, `run_lockEnter_blocked`.

*Outcome.* Full claim false (`C175_full_false`, `C175_closed_under`). Calls one after the other; interleavings are C49-C53.

*Theorems.* `C175_full_false` (pcq), `C175_closed_under` (pcq), `C175_closed_inside` (pcq), `C175_exclusion_partial` (pcq), `C175_returns` (pcq), `C175_nothing_left` (pcq), `C175_close_entered` (pcq)

### C176 — Captures of a Composition that is edited (partial)

*Model.* `editsComp` (Verif/Model/CompTrack.lean), `addCaptures`.

*Proof.* Invariant `CapInv`: each captured name has its capture among its sends, whatever the steps are; kept by every edit. Induction over the steps of a run (`iterSteps_cap`). Uses C171 for the names being distinct.

*Outcome.* Full claim false (`C176_full_false`, `C176_crossed`). Steps, sends and trackers are taken not to touch the lists of the captures themselves; further `add_captures` start afresh (the theorems apply from the last one on).

*Theorems.* `C176_by_name` (pcq), `C176_stale` (pcq), `C176_full_false` (pcq), `C176_follow_partial` (pcq), `C176_crossed` (pcq)

### C177 — Keyword arguments of execute (partial)

*Model.* `executeWith`, `itercallWith`, `noHook` (Verif/Model/CompHook.lean).

*Proof.* Setting an insert that is there commutes with setting others, also in the order of the dicts (`addInsert_comm`), so binding again is binding once (`bindTable_again`).

*Outcome.* Full claim false (`C177_full_false`, `C177_stays_bound`). The repository has no such subclass: `tableHook` is the obvious one by the docstring; `C177_bound` and `C177_blamed` are about any.

*Theorems.* `C177_ignored` (pq), `C177_bound` (pq), `C177_blamed` (p), `C177_rebound_partial` (pcq), `C177_stays_bound` (pq), `C177_full_false` (pcq)

### C178 — are_in with iterators (partial)

*Model.* `searchIter`, `searchAll`, `areInIter`, `areInCalls` (Verif/Model/FuncIter.lean).

*Proof.* The search for the items, one after the other, is the greedy test for a subsequence (`searchAll_all`).

*Outcome.* Full claim false (`C178_full_false`). What is decided instead: `C178_in_order`, `C178_first_only`.

*Theorems.* `C178_in_order` (pq), `C178_first_only` (pq), `C178_left` (pq), `C178_one_item_partial` (p), `C178_true_sound` (pq), `C178_full_false` (pq), `C178_items_once` (–)

## Defects found (properties false of the code)

Every entry is backed by a theorem of that property.

* C02: with the default `escape=''`, two paths can build the same flat key and one value is lost.
* C07: `dig_for_*` is depth-first over sibling mappings although documented as breadth-first.
* C08: `match="item"` raises TypeError on every non-empty mapping.
* C11: `rmerge` is not associative. C12: `mtypes` is not passed down.
* C14: a key that is neither item nor string lets TypeError out of `get_from`.
* C18: in chunked pools one failing record loses the results of its whole chunk. C74: after a chunked map a later
  unchunked map on the same pool breaks. C75: one-shot iterators of records produce no result.
* C32: an unnamed step can replace an explicitly named integer step. C33: `reindex` drops inserts and sends of renamed steps.
* C36: `delete_block` ignores `missing_ok`. C40: `Notepad.get` raises FileNotFoundError instead of giving the default.
* C41: notepads with prefixes `a` and `a_b` share blocks. C43, C78: a failed set leaves a listed key that cannot be deleted.
* C44: `del np["index_key_0"]` hides a live key. C45: empty and bytes keys break the index.
* C48: a crash in `set` can leave the key missing or reading zeros.
* C49, C52, C53, C83: the lock has a gap between marker and lock block and reads a stale count, so two processes can be
  inside, a dead holder can be bypassed, and a key can be lost under default locking.
* C54: deletion from `MetaTagIndex`/`GridPaper` deadlocks with itself under default locking.
* C56: `GridPaper.set(exists_ok=False)` refuses new keys and overwrites existing ones.
* C59: `unload` on a Dynamic that never had a function raises AttributeError. C60: `from_function` cannot be reloaded.
* C62: metadata that json cannot serialise leaves a corrupt log file.
* C65: `literal_eval` exceptions other than ValueError and SyntaxError escape.
* C67: some casts raise a RuntimeWarning made an error; zeros with NaN return a bare array; nillable integers are never produced.
* C68: a duplicated column is compared with itself. C69: the constants dict takes the first row, which may be null.
* C71: a group of nulls raises TypeError; `columns` is ignored. C72: values from 2^53 lose rows, descending order is wrong.
* C79: a Dynamic made from source loses default values and runs the first code object of the source.
* C81: lock waits add up over the life of a lock object. C82: a timeout in the middle of the line lets two later processes
  in together.
* C86: while a new GridPaper key is being added, `gp[key]` can silently give the array of the first listed key; while one is
  overwritten, the old shape with bytes of both arrays.
* C87: while one GridPaper key is being deleted, the last listed key is missing.
* C91: replacing a value is not atomic: between the `unlink` of the old block and the copy into the new one, readers get
  `FileNotFoundError`, zeros, or part of the new value (`C91_reader_may_miss`); no lock covers values, only the index.
* C92: `downcast_df` of a table that has been sorted gives numbers to other rows, silently; of one that has been filtered,
  it makes rows with nulls; row labels are lost if all columns are numeric.
* C93: `squeeze` of a boolean Series drops null labels. C94: `numeric_columns` gives interval columns, and does not give a
  Series of unsigned integers. C95: `unique_to_records` leaves out rows with nulls, and gives no columns if no row is left.
* C97: `downcast` turns 2**40 into a `uint64` (eight bytes, as before) though `float32` would do without loss.
* C98: dumps of two Trackers to one file that overlap lose a document or break the JSON, silently; a dump during a clear is lost.
* C99: `GridPaper.get` gives the shared block, not a copy: later stores by any client show in it, with the old shape; writes into it
  reach every client, until the key is deleted; after that nobody.
* C100: the JSON codec takes tuples and keys that are not strings without complaint and gives lists and strings back; items whose
  key strings coincide (`1` and `'1'`) are merged and all but the last value lost; adjacent surrogates become one character.
* C102: after one dump that raises (a tracked set, say) the log file cannot be read as JSON any more, until it is cleared.
* C103: the AST codec does not keep strings: `'123'` comes back as a number, and a word like `'hello'` raises `ValueError`
  when read (so a Notepad with this codec takes the value and cannot give it back); the same for nan and infinities.
* C104: `scrape_subframe` returns a number instead of a tuple if the block has one numeral, and raises `SyntaxError` for numerals
  with leading zeros.
* C105: a scraped group `None` cannot be told from no match.
* C106: deactivating the resource tracker does nothing for blocks already opened; they are removed when the process ends, even if
  they have been deleted and made anew by another process.
* C107: a process with its own tracker that has read one key of a notepad removes the value for everyone when it ends.
* C108: a block with a colon in its name is never tracked and stays in memory for good.
* C109: without deactivation, a key that is not ASCII raises `UnicodeEncodeError` and leaves a listed key that cannot be read or set.
* C110: after deactivation, a lock, queue or pool under spawn or forkserver raises `NameError` (`self` in memutilz.py:88, 94).
* C111: `wrap_piped` deadlocks for results larger than the pipe's buffer. C112: it hangs if the child dies or cannot pickle.
* C114: `smash` gives different rows the same label if their texts have underscores. C116: `unpack_column` changes the frame it is
  given, overwrites columns named alike, and mixes rows with equal labels.
* C117: `parquet_metadata_records` raises `TypeError` for files without statistics. C118: `num_values` leaves out nulls. C119:
  `meta_column_df(extended=True)` fails, or doubles columns, when a size is the same in all row groups.
* C120: `random_nested_dict` may raise `AttributeError` or `TypeError`, or return fewer leaves than asked for, when a key comes
  up twice; the default `keytypes` takes every class as hashable, so `types=(list,)` raises `TypeError`.
* C121: `get_label_text` raises `UnicodeDecodeError` if the size limit falls inside a character.
* C122: `trim_label` cuts a label at a line ending in `LEGEND`, and does not find `END` followed by a line feed alone.
* C123: an iterator given to `gmap` before the shortest one loses an element.
* C125: `dump` of a key that is not there empties the file it would have written, then raises `FileNotFoundError`.
* C126: `close(dump=True)` dumps the keys "a.b" and "a_b" to the same file, and deletes both: one value is lost.
* C127: at exit, a client of a notepad that has since been closed and made anew unlinks the new index; a second client of the
  same notepad prints two tracebacks; a GridPaper with a key keeps the process from ending.
* C128: `MaybePool.map` writes made-up keys into the caller's records; mapping two lists and then both together loses results.
* C130: Trackers with different identifiers and names may write to the same file; a name beginning with a slash leaves `outdir`.
* C131: a function wrapped by `dontcare` raises if the exception's `__str__` does, and nothing is reported.
* C132: `digsource` fails for Dynamics made from source, partials of Dynamics and unloaded Dynamics.
- C133: a Dynamic given as a step of a Composition is not called: since every Dynamic has an attribute `func`, the Composition
  takes it for a partial and calls `step.func` (composition.py:224). A lazy Dynamic then raises TypeError (`None` is not callable)
  and an optional one raises what its function raises.
- C134: a Composition with an empty mapping of steps, as a step, gives None instead of its signal.
- C135: `Composition(steps, sends, inserts)` keeps mappings it is given (`enumerate_as_mapping` does not copy). Two Compositions
  made from the same mapping of inserts change each other's arguments by merely running, if one sends to its own steps.
* C137: what C48 says in general (a key being set when the process is killed may be decoded from a block of zeros) does no harm with the default codec: no block that was not wholly written decodes.
* C139: a list nested deeper than the recursion limit cannot be stored; by C78 its key is listed afterwards though it has no value.
* C140: `dig_and_edit` edits a mapping once for each path to it, so a setter that is no fixed point is applied several times to a mapping that is in several places; a mapping that holds itself is a RecursionError.
* C142: a mapping that `rmerge` does not merge is in the result itself, not a copy: editing the result edits the argument.
* C143: `rmerge` takes time exponential in the depth to which keys are common: each common nested pair is merged twice, once for each of the two occurrences of its key.
* C144: a function that changes its arguments gives different results without workers, with workers and with chunks if records share a list or dict; only `threads=None` changes the caller's objects.
* C145: a Sticky is re-stuck by writing over the old value in place, so a reader may get half of each value, and two processes sticking at once may leave a mixture for good.
* C146: by C137 a torn pickle (a beginning, then zeros) does not load, but a reader that overlaps a writer need not see a beginning: it may see a zero in the middle, and get a number that nobody has set.
- `Composition.add_step` under a name that is taken leaves the old track send in place: each run notes the step twice, first with the function that was replaced (C147). `reindex` leaves sends and inserts under the old names, so steps are noted under wrong names, with wrong functions, or not at all (C147).
- Adding a step to a Composition that is being iterated over makes the iteration raise `RuntimeError` even after its last output; `reindex` in between makes it raise `KeyError` or run steps twice (C148).
- Two iterations over one Composition share its inserts, so sends to steps go from one into the other (C149).
- A key claimed with `set(key, value, exists_ok=False)` may be won by two processes: the check of the index and of the block are both made before the writes, and only the lock makes them one step (C150).
- A mutex made of a claimed key loses updates in the same schedules (C151): both processes say that they have increased the counter, which has been increased once.
- Processes that set different keys of one GridPaper can mix them up in the same schedules (C152): both list their key in the same place of the index, whose metadata are those of the last one, so that a process that sets "b" and reads "b" gets the array another has set at "a". Without any such schedule, an array read while its owner replaces it can have the old shape and the new bytes: `GridPaper.__setitem__` stores the bytes before the metadata and takes the lock for the index only.
- `TagIndex.update` reads without the lock (C153): a listing made while another process adds a key may end with an entry of NULs, and one made while another process removes a key may lack a third key that is in the index all the time, because `remove` moves the last key into the gap.
- `dig_for` (structures.py:237-243) has the recursive call inside the `try` meant for `next(iternests)`: a `StopIteration` raised by a user's predicate below the top level is swallowed and ends the search among the remaining siblings; a key that is there is reported as None (C154). `gmap` and `dig_and_edit` likewise swallow a `StopIteration` of the function they are given, silently giving a shorter tuple or leaving later matches unedited (C123, C155). A raising setter leaves `dig_and_edit` half done (C155).
- Creating shared memory is two system calls in CPython 3.11 (`shm_open`, then `ftruncate`), and mapping a block that has no size yet raises `ValueError`. Only `exists_block` expects it. Two processes that `open_block` the same address at the same time may see a `ValueError`, and so may a `Notepad.get` (with or without a default) during the first `set` of the key, and whoever first takes a `SlidingLock` together with another. A process killed between the two calls leaves a block that `exists_block` reports and that `open_block` (even with overwrite), `delete_block`, `fetch_block_bytes` and `SlidingLock` raise `ValueError` for, for ever (C156).
- `GridPaper.get(key, fetch=False)` and `GridPaper.__getitem__(key, fetch=False)` raise `TypeError` for every key that is there (C159). `Notepad.get(key, default, fetch=False)` raises `FileNotFoundError` for a missing key (C158, as C40 for values).
- On a `Notepad` with `index_type=FakeIndex`, `set(key, value, exists_ok=False)` does not keep two processes from both setting
  the key (codecs.py `memorize` looks, then creates with `overwrite=True`); the second overwrites the first (C161). A missing
  key raises `FileNotFoundError` even from `get` with a default, as with other indices (C160).
- On a `Notepad` with `index_type=MetaTagIndex`, `del np[key]` raises `KeyError` though it has removed the key when neither the key
  nor the last key has metadata, because `MetaTagIndex.__delitem__` deletes a metadata block that is not there (C162); so
  `clear()` and `close()` stop half way and leave the rest in shared memory (C163). Setting a key again without `meta` keeps
  the metadata of the old value (C162).
- C164 (composition.py:224, func.py:38, 89, 122, 135): `triggerize`, `splat`, `argstop` and `optionalize` use `functools.wraps`,
  which copies `__dict__`. A Dynamic that is loaded has `func` in its `__dict__`, so the decorated function has an attribute
  `func` too, and a Composition calls that instead: `Composition([optionalize(dynamic)])` raises what the function raises.
- C165 (func.py:8, 13): a parameter called `func` cannot be given by name through `pass_parameters` or `catch_interaction`.
  In the same way a Dynamic or a Composition refuses a keyword `self` (dynamic.py:150, composition.py:286; C133, C134).
- C166, C167 (implements.py:761-785, 802-816): a notepad removes the value of a key before it looks at the index, and lists a key
  before it stores the value. If clients made with `index_type=FakeIndex` use the same prefix, a listed key can lose its value, and
  then no call but setting it again helps, and `close` and `clear` raise `KeyError` half way; and values can be there that are not
  listed, which `close` leaves behind.
- C168 (structures.py:374-407): in-process, `map` works after `close`, and `join` without it; in a pool both raise `ValueError`.
  `map` sets `self.chunked` before it finds out, so results that were there are then read as chunks.
- C170: a send added before its step comes before the record of a tracker, one added after comes after it; if the send raises,
  the step is not recorded as done in the first case (composition.py:70-83, 157-159).
- C171: `Composition.function_names` raises `AttributeError` if any step is a `functools.partial` object, a Composition or
  anything else without `__name__` (composition.py:100-102), though partial steps are what `_call_partial_step` is for.
- C172: a step that adds a step to its own Composition under a new name makes the run raise `RuntimeError`, even if it is the last
  step (composition.py:239); a tracker then notes the failure of the step that is at the next place, which was not called (254-257).
- C173 (implements.py:187-196): a process that looks for a slot tries one number after another from the count it read; if another
  process releases and acquires between its tries, it finds every slot taken, for ever. Once it has a slot it does acquire.
- C174 (implements.py:237): `release` writes the number before it unlinks anything; number 2^40 does not fit into five bytes, so
  it raises `OverflowError` and leaves its lock block, for which everybody waits from then on.
- C175 (implements.py:251-256, also 486-493): closing a lock (or a `TagIndex`) unlinks the count block though other lock objects may
  have it; they go on with the old numbers, new ones start from 1, and neither looks at the other's lock blocks. A lock
  closed inside its own `with` raises `FileNotFoundError` at the end of it.
- Captures go by name: after `reindex`, captures of named steps keep old values for ever, and captures of steps numbered out of order hold the output of other steps (C176).
- A subclass of `Composition` that binds keyword arguments of `execute` with `add_insert` leaves them bound for later runs; and an exception raised by the binding is noted as a failure of the first step (C177).

Seen while modelling and not stated as properties: a caller's `inserts` mapping is mutated in place; sends persist as
inserts across runs; a replaced step doubles its track send; an object with an attribute `func` that is not a partial is
called through that attribute; `open_block` without overwrite attaches an existing block of any size; a stored `None`
reads as absent; `GridPaper.__getitem__(fetch=False)` raises TypeError and `GridPaper.clear` AttributeError;
0-dimensional arrays leave an orphan block; `TagIndex(create=True)` on an existing index raises FileExistsError;
`FakeIndex.update` returns None; `squeeze` of a boolean Series with several levels of labels raises KeyError.

## Mutation testing

A copy of the model outside `/verif` is edited the way a programmer might get it wrong (flag inverted, off by one, step
dropped, order swapped, and repairs of the defects above, for which the negation must fail). The build must then fail in
a theorem of the claim concerned. `seeded/LOG.jsonl` has one line per attempt; survivors lead to tightened theorems,
named in the same line.
