{"id": "C01", "title": "to_records emits exactly one record per innermost mapping", "statement": "to_records(nested, level_names=names) returns, in document order, exactly one flat record for every leaf mapping (a mapping at least one of whose values is not a mapping). The record maps the i-th level name to the key followed at depth i on the way to that leaf, and every other field to the leaf's own value. Level names win over leaf fields of the same name. If there are fewer level names than levels reached, StopIteration is raised; if a non-mapping is met where a mapping is needed, AttributeError is raised.", "quantifier": "every finite nesting of mappings, of any depth, width and mixture of branch and leaf levels, and every stream of level names (finite or infinite)", "why_tests_cant": "Depth, fan-out and the branch/leaf mixture are unbounded; a test fixes one tree.", "anchors": ["dustgoggles/structures.py:to_records"]}
{"id": "C02", "title": "unnest is lossless when an escape character absent from the keys is used", "statement": "If escape is a single character that occurs in no key and no key is the empty string, unnest gives distinct scalar leaves distinct flat keys, and the flat dict maps the key built from each path to exactly the value at that path and contains nothing else. With the default escape='' this fails: two different paths can be merged and one value silently lost.", "quantifier": "every finite nested mapping and every escape character", "why_tests_cant": "Injectivity of the key encoding is a statement about all pairs of paths of all lengths.", "anchors": ["dustgoggles/structures.py:unnest", "dustgoggles/structures.py:_unnest"]}
{"id": "C03", "title": "NestingDict creates intermediate levels and reads back what was written", "statement": "For any path k1..kn, after nd[k1]..[kn] = v, nd[k1]..[kn] is v, every value at a path that is not a prefix of or extended by k1..kn is unchanged, and merely reading a missing path creates empty levels along it and nothing else.", "quantifier": "every NestingDict content, every path, every value", "why_tests_cant": "paths and contents are unbounded", "anchors": ["dustgoggles/structures.py:NestingDict"]}
{"id": "C04", "title": "NestingDict.todict converts every level and keeps all contents", "statement": "nd.todict() is a plain dict containing, at every depth reachable through dicts, no NestingDict, with the same keys in the same order and the same scalar values as nd.", "quantifier": "every finite NestingDict, of any depth, mixing plain dicts and NestingDicts", "why_tests_cant": "depth is unbounded and types mix arbitrarily", "anchors": ["dustgoggles/structures.py:NestingDict.todict", "dustgoggles/structures.py:dig_and_edit"]}
{"id": "C05", "title": "dig_for_values/keys/items find every match, once, at every depth", "statement": "dig_for_items(m, ref, mtypes=T) returns exactly the (key, value) pairs satisfying the predicate in m and in every mapping of a type in T reachable through such mappings, each occurrence once, level before sublevels; it returns None exactly when there is no match; dig_for_values and dig_for_keys are its projections.", "quantifier": "every finite nested mapping, every total predicate on (key, value), every set of traversed mapping types", "why_tests_cant": "all nestings and predicates", "anchors": ["dustgoggles/structures.py:dig_for_all", "dustgoggles/structures.py:dig_all_wrapper", "dustgoggles/structures.py:dig_for_values", "dustgoggles/structures.py:dig_for_keys", "dustgoggles/structures.py:dig_for_items", "dustgoggles/structures.py:_evaluate_diglevel"]}
{"id": "C06", "title": "dig_for_value/key/item return the first element of the exhaustive search", "statement": "dig_for_item(m, ref) is the first pair of dig_for_items(m, ref), and None exactly when dig_for_items is None; likewise for dig_for_value and dig_for_key.", "quantifier": "every finite nested mapping and predicate", "why_tests_cant": "relates two recursive searches over all inputs", "anchors": ["dustgoggles/structures.py:dig_for", "dustgoggles/structures.py:dig_wrapper"]}
{"id": "C07", "title": "dig_for_* return a breadth-first (shallowest) match", "statement": "As documented ('using a breadth-first search'), the item returned by dig_for_item is at the least depth at which any match exists.", "quantifier": "every finite nested mapping and predicate", "why_tests_cant": "a counterexample needs the right nesting order; most samples satisfy it", "anchors": ["dustgoggles/structures.py:dig_for"]}
{"id": "C08", "title": "dig predicates built from constants honour match='key', 'value' and 'item'", "statement": "With a non-callable ref, match='key' selects pairs whose key equals ref, match='value' pairs whose value equals ref, match='item' pairs equal to ref; a callable ref is used as the predicate whatever match is.", "quantifier": "every mapping and every constant", "why_tests_cant": "all inputs", "anchors": ["dustgoggles/structures.py:constant_to_dig_predicate", "dustgoggles/structures.py:keyonly", "dustgoggles/structures.py:valonly"]}
{"id": "C09", "title": "dig_and_edit edits exactly the matching entries at every level", "statement": "When setter results are never deeper than what they replace, dig_and_edit terminates, and at each level every pair satisfying filter_func has its value replaced by setter_func(key, value) (exactly one setter application per matching pair of that level), non-matching values are kept, keys and their order never change, and editing continues inside the resulting mapping values.", "quantifier": "every finite nested mapping, filter and setter", "why_tests_cant": "unbounded nesting; mutation during traversal", "anchors": ["dustgoggles/structures.py:dig_and_edit"]}
{"id": "C10", "title": "rmerge path law", "statement": "rmerge(a, b) maps a key present in only one argument to that argument's value, a key mapped to mappings in both to their recursive merge, and any other shared key to b's value; keys appear in a's order followed by b's new keys.", "quantifier": "every pair of finite nested mappings", "why_tests_cant": "all pairs of trees", "anchors": ["dustgoggles/structures.py:rmerge"]}
{"id": "C11", "title": "rmerge is idempotent, has {} as identity, and extends b", "statement": "rmerge(a, {}) == a, rmerge({}, b) == b, rmerge(a, a) == a, and every scalar path of b is found unchanged in rmerge(a, b). rmerge is not associative in general.", "quantifier": "every (pair of) finite nested mapping(s)", "why_tests_cant": "algebraic law over all trees", "anchors": ["dustgoggles/structures.py:rmerge"]}
{"id": "C12", "title": "rmerge honours a caller-supplied mtypes at every depth", "statement": "rmerge(a, b, mtypes=T) merges, at every depth, exactly the pairs of values that are both of a type in T.", "quantifier": "every pair of nested mappings and every T", "why_tests_cant": "the defect is invisible at the top level", "anchors": ["dustgoggles/structures.py:rmerge"]}
{"id": "C13", "title": "insert_after inserts directly after the prior key", "statement": "If prior_key is in mapping and new_key is not, insert_after returns the mapping's items with (new_key, new_value) inserted directly after prior_key and nothing else changed. If prior_key is absent the result is an unchanged copy. If new_key is already present after prior_key, its old value survives.", "quantifier": "every finite mapping and keys", "why_tests_cant": "positions and collisions are unbounded", "anchors": ["dustgoggles/structures.py:insert_after"]}
{"id": "C14", "title": "get_from returns the nested item or the default", "statement": "get_from(obj, keys, default) follows keys by item access, falling back to attribute access, and returns default when some key resolves to neither.", "quantifier": "every nested object and every path of keys", "why_tests_cant": "a missing non-string key and a key naming an attribute are corner cases of an infinite space", "anchors": ["dustgoggles/structures.py:get_from", "dustgoggles/structures.py:getitemattr"]}
{"id": "C15", "title": "separate_by is an order-preserving partition", "statement": "separate_by(xs, ref) returns (hits, misses) such that every item goes to exactly one list, relative order is kept, and an item is a hit exactly when ref(item) is the object True.", "quantifier": "every finite collection and every predicate, including non-boolean truthy ones", "why_tests_cant": "all collections", "anchors": ["dustgoggles/structures.py:separate_by"]}
{"id": "C16", "title": "HashDict lookups are equivalent to the last assignment", "statement": "After any sequence of assignments, d[k] is an item with the same equivalence hash as the last item assigned to k, namely the first item ever stored with that hash; it equals the last item assigned whenever the hash separates stored items; a never-assigned key raises KeyError; the number of stored unique values is the number of distinct hashes ever assigned.", "quantifier": "every history of assignments and every equivalence function", "why_tests_cant": "history-quantified", "anchors": ["dustgoggles/structures.py:HashDict"]}
{"id": "C17", "title": "MaybePool gives the same results in-process, pooled and chunked", "statement": "If func raises on no record and record keys are distinct, MaybePool(threads).map(func, recs, as_chunks); .get() is {key_i: func(*args_i, **kwargs_i)} in record order of keys, for threads=None and every thread count >= 1, chunked or not.", "quantifier": "every list of records, every func, every thread count, chunked or not", "why_tests_cant": "all thread counts, list lengths and remainders", "anchors": ["dustgoggles/structures.py:MaybePool.map", "dustgoggles/structures.py:MaybePool.get", "dustgoggles/structures.py:_chunkwrap", "dustgoggles/structures.py:MaybeResult"]}
{"id": "C18", "title": "MaybePool isolates failures", "statement": "If func raises on some records, get() still maps every other record's key to its result and every failing record's key to its exception, and with raise_exc=True get() raises the first failing record's exception.", "quantifier": "every list of records and every partial func, chunked or not", "why_tests_cant": "which records share a chunk depends on all sizes", "anchors": ["dustgoggles/structures.py:MaybePool.get", "dustgoggles/structures.py:_chunkwrap", "dustgoggles/structures.py:map_into_pool"]}
{"id": "C19", "title": "Chunking executes each record exactly once in balanced chunks", "statement": "The chunks made for a pool of n workers are n contiguous runs whose concatenation is the record list and whose sizes differ by at most one.", "quantifier": "every n >= 1 and record list", "why_tests_cant": "arithmetic over all n and lengths", "anchors": ["dustgoggles/structures.py:MaybePool.map"]}
{"id": "C20", "title": "reindex_mapping and enumerate_as_mapping number values consecutively from zero", "statement": "reindex_mapping(m) has keys 0..len(m)-1 mapped to m's values in order; enumerate_as_mapping does so for sequences, is the identity on mappings and maps None to {}; reindexing is idempotent.", "quantifier": "every mapping / sequence", "why_tests_cant": "all lengths", "anchors": ["dustgoggles/structures.py:reindex_mapping", "dustgoggles/structures.py:enumerate_as_mapping"]}
{"id": "C21", "title": "listify is total and idempotent", "statement": "listify(x) is always a list; for a collection other than str it lists the elements in order, otherwise it is [x]; listify(listify(x)) == listify(x).", "quantifier": "every object", "why_tests_cant": "all inputs", "anchors": ["dustgoggles/structures.py:listify"]}
{"id": "C22", "title": "are_in decides containment of all (any) items", "statement": "are_in(items)(container) is True exactly when every item is in container; with oper=or_, exactly when some item is; it raises TypeError exactly when items is empty.", "quantifier": "every non-empty item collection and container", "why_tests_cant": "all collections", "anchors": ["dustgoggles/func.py:are_in"]}
{"id": "C23", "title": "intersection and disjoint compute the shared and unshared elements", "statement": "intersection(*its) is the set of elements in all of them; disjoint(*its) gives, for each, its elements in order that are not in all of them; with no arguments both raise TypeError.", "quantifier": "every finite family of iterables", "why_tests_cant": "all families", "anchors": ["dustgoggles/func.py:intersection", "dustgoggles/func.py:disjoint"]}
{"id": "C24", "title": "optionalize swallows exactly ordinary exceptions", "statement": "optionalize(f, cb)(*args) returns f's result when f returns; when f raises an Exception it calls cb once with it and returns None; KeyboardInterrupt and other non-Exception BaseExceptions propagate without calling cb; an exception raised by cb propagates.", "quantifier": "every function behaviour and callback", "why_tests_cant": "all behaviours", "anchors": ["dustgoggles/func.py:optionalize"]}
{"id": "C25", "title": "argstop truncates positional arguments", "statement": "argstop(f, n)(*args, **kw) calls f with the first n positional arguments, after unpacking a single positional argument when unpack is True, and with all keyword arguments.", "quantifier": "every argument list and n", "why_tests_cant": "all lengths", "anchors": ["dustgoggles/func.py:argstop"]}
{"id": "C26", "title": "Composition.execute threads the signal through all steps in order", "statement": "Without sends, execute(signal) is the left-to-right composition of the steps, each called with its inserts, applied to signal; the composition object is unchanged, so repeated executions agree. A Composition with an empty step mapping returns None for every signal.", "quantifier": "every list of steps, inserts and signals", "why_tests_cant": "unbounded pipelines", "anchors": ["dustgoggles/composition.py:Composition.execute", "dustgoggles/composition.py:Composition.itercall", "dustgoggles/composition.py:Composition.call_step"]}
{"id": "C27", "title": "The signal flows into the first open positional slot", "statement": "When a step has positional inserts, the positional arguments passed are the inserts in increasing position with the signal at the smallest non-negative position not occupied by an insert; if the inserts occupy positions without gaps the argument at each position i is exactly the insert at i.", "quantifier": "every set of integer insert positions and values", "why_tests_cant": "all sets of positions", "anchors": ["dustgoggles/composition.py:Composition._flow_signal"]}
{"id": "C28", "title": "Inserts override arguments baked into partial steps", "statement": "For a functools.partial step, the underlying function receives at each positional slot / keyword the insert when there is one and otherwise the baked value, with the signal in the first open slot.", "quantifier": "every partial step, insert mapping and signal", "why_tests_cant": "all argument mixtures", "anchors": ["dustgoggles/composition.py:Composition._call_partial_step"]}
{"id": "C29", "title": "Sends to later steps are delivered in the same run, to earlier steps in the next", "statement": "A send from step a to argument slot p of step b makes step b receive (piped) output of a in slot p: in the same execution if b comes after a, and from the next execution on otherwise.", "quantifier": "every pipeline, step positions and signals", "why_tests_cant": "ordering over all pipelines", "anchors": ["dustgoggles/composition.py:Composition._perform_sends", "dustgoggles/composition.py:Composition.place_into", "dustgoggles/composition.py:Composition.add_send"]}
{"id": "C30", "title": "Captures record each step's last output", "statement": "After add_captures() and a successful execute, captures[name] == [output of step name] for every step, equal to the states yielded by itercall; after a failure at step k, captures before k hold this run's outputs and those from k on are untouched.", "quantifier": "every pipeline, signal and failure point", "why_tests_cant": "every failure point", "anchors": ["dustgoggles/composition.py:Composition.add_captures", "dustgoggles/composition.py:Composition.add_capture"]}
{"id": "C31", "title": "A failing pipeline reports the failing step and stops there", "statement": "If step k raises (or one of its sends does), no later step or send runs; with a tracker exactly one failure record is appended, for step k; the exception propagates unless optional is True, in which case execute returns None.", "quantifier": "every pipeline, signal and failure point", "why_tests_cant": "every failure point", "anchors": ["dustgoggles/composition.py:Composition.execute"]}
{"id": "C32", "title": "add_step without a name appends", "statement": "add_step(f) on a Composition built from a sequence (and only extended by unnamed add_step) adds f as the last step and replaces nothing.", "quantifier": "every history of unnamed add_step calls; refuted for explicitly named integer steps", "why_tests_cant": "history-quantified", "anchors": ["dustgoggles/composition.py:Composition.add_step"]}
{"id": "C33", "title": "reindex keeps the pipeline's behaviour", "statement": "After reindex(), execute behaves as before.", "quantifier": "every pipeline; false when sends or inserts are attached to a step under a name that reindex changes, true if each step has the same ones under its name and its number", "why_tests_cant": "needs attached sends/inserts at particular names", "anchors": ["dustgoggles/composition.py:Composition.reindex"]}
{"id": "C34", "title": "memorize/remember round-trips through shared memory", "statement": "memorize(v, a, exists_ok, encode) followed by remember(a, decode=decode) returns decode(encode(v)), whatever was stored at a before and however its size differs; no other address changes; with exists_ok=False on an existing address it raises FileExistsError and changes nothing; an empty encoding raises ValueError.", "quantifier": "every store content, address, value and codec", "why_tests_cant": "all prior memory states and sizes", "anchors": ["dustgoggles/codex/codecs.py:generic_mnemonic_factory", "dustgoggles/codex/memutilz.py:open_block", "dustgoggles/codex/memutilz.py:fetch_block_bytes"]}
{"id": "C35", "title": "open_block creates, attaches or replaces as requested", "statement": "open_block(a, n) returns a block of n zero bytes if a did not exist, the existing block unchanged if it did and overwrite=False, and a fresh zeroed block of n bytes if overwrite=True; create=False never creates.", "quantifier": "every store, address, size and flag combination", "why_tests_cant": "all memory states", "anchors": ["dustgoggles/codex/memutilz.py:open_block", "dustgoggles/codex/memutilz.py:exists_block"]}
{"id": "C36", "title": "delete_block honours missing_ok", "statement": "delete_block(a) removes the block at a and nothing else; deleting a missing block raises unless missing_ok=True, in which case it is a no-op.", "quantifier": "every store and address", "why_tests_cant": "all memory states", "anchors": ["dustgoggles/codex/memutilz.py:delete_block"]}
{"id": "C37", "title": "Sticky.read returns what was stuck", "statement": "After Sticky.note(v, a) a Sticky(a) in any process reads v; restick with an encoding of the same length replaces it; restick with a different length raises ValueError and leaves the stored value intact; read returns None when nothing is there.", "quantifier": "every store, value and address", "why_tests_cant": "all values and sizes", "anchors": ["dustgoggles/codex/implements.py:Sticky"]}
{"id": "C38", "title": "TagIndex behaves as a set of keys with stable numbering", "statement": "Over any history of add and remove by any number of clients on one index (operations not overlapping in time), the listing is that of an ordered list of distinct keys where add appends a new key and returns its position (or the existing position), and remove moves the last key into the hole and returns the freed position, or raises KeyError for an absent key; every other observable block of memory is untouched.", "quantifier": "every history of operations, any number of clients, every key set on which the hash is collision-free, every initial memory", "why_tests_cant": "history-quantified", "anchors": ["dustgoggles/codex/implements.py:TagIndex", "dustgoggles/codex/implements.py:SlidingLock"]}
{"id": "C39", "title": "Notepad behaves as a dictionary", "statement": "Over any history of set, get, del, keys by any number of clients sharing a prefix (operations not overlapping in time), results are those of a dictionary keyed by str(key): get returns the last value set and not deleted, keys() lists exactly the live keys without repetition, deleting an absent key raises KeyError, set with exists_ok=False on a live key raises KeyError and changes nothing.", "quantifier": "every history of operations, any number of clients, keys and codec-stable values", "why_tests_cant": "history-quantified", "anchors": ["dustgoggles/codex/implements.py:Notepad", "dustgoggles/codex/implements.py:AbstractNotepad", "dustgoggles/codex/implements.py:TagIndex", "dustgoggles/codex/codecs.py:generic_mnemonic_factory"]}
{"id": "C40", "title": "Notepad.get returns the default for an absent key", "statement": "get(key, default) returns default when key was never set or was deleted.", "quantifier": "every notepad state and key", "why_tests_cant": "any state", "anchors": ["dustgoggles/codex/implements.py:Notepad.get", "dustgoggles/codex/implements.py:Notepad.__getitem__"]}
{"id": "C41", "title": "Notepads with different prefixes do not interfere", "statement": "No operation on a Notepad changes any block belonging to a Notepad with a different prefix.", "quantifier": "every pair of prefixes, every history", "why_tests_cant": "prefix collisions depend on string structure", "anchors": ["dustgoggles/codex/implements.py:AbstractNotepad.address", "dustgoggles/codex/implements.py:TagIndex.hash_address", "dustgoggles/codex/implements.py:TagIndex.key_address"]}
{"id": "C42", "title": "Notepad.close releases every block it created", "statement": "After any history of set/del and then close(), exactly the blocks that existed before the Notepad was created exist.", "quantifier": "every history", "why_tests_cant": "leaks appear only after particular histories", "anchors": ["dustgoggles/codex/implements.py:Notepad.close", "dustgoggles/codex/implements.py:TagIndex.close"]}
{"id": "C43", "title": "A failed Notepad set leaves the notepad unchanged", "statement": "If encoding the value raises (or the underlying block cannot be created), keys() and all values are as before.", "quantifier": "every notepad state, key and failing value", "why_tests_cant": "every state", "anchors": ["dustgoggles/codex/implements.py:Notepad.__setitem__"]}
{"id": "C44", "title": "Keys with reserved names cannot damage the index", "statement": "No set or del with a string key can alter the blocks of the notepad's own index other than through the index's add/remove.", "quantifier": "every string key", "why_tests_cant": "the damaging keys are specific strings", "anchors": ["dustgoggles/codex/implements.py:Notepad.__setitem__", "dustgoggles/codex/implements.py:Notepad.__delitem__"]}
{"id": "C45", "title": "TagIndex accepts every key", "statement": "add(key) followed by update() lists str(key), for every key including the empty string and bytes, and later removals of other keys succeed.", "quantifier": "every key", "why_tests_cant": "corner-case keys", "anchors": ["dustgoggles/codex/implements.py:TagIndex._add", "dustgoggles/codex/implements.py:TagIndex._delitem", "dustgoggles/codex/implements.py:TagIndex.hash_address"]}
{"id": "C46", "title": "A crash during TagIndex.add loses no indexed key", "statement": "If the adding process stops at any primitive shared-memory operation, update() by another client still lists every previously indexed key, in order, followed by at most one entry for the new key's slot.", "quantifier": "every crash point, index content and key", "why_tests_cant": "every crash point", "anchors": ["dustgoggles/codex/implements.py:TagIndex._add"]}
{"id": "C47", "title": "A crash during TagIndex removal loses no other key", "statement": "If the removing process stops at any primitive shared-memory operation, update() by another client still lists every key other than the target.", "quantifier": "every crash point, index content and target", "why_tests_cant": "every crash point", "anchors": ["dustgoggles/codex/implements.py:TagIndex._delitem"]}
{"id": "C48", "title": "A crash during Notepad set leaves other keys readable", "statement": "If the setting process stops at any primitive operation, every other key still reads its value; the key being overwritten reads either its old or its new value.", "quantifier": "every crash point and notepad content (second half refuted)", "why_tests_cant": "every crash point", "anchors": ["dustgoggles/codex/implements.py:Notepad.__setitem__", "dustgoggles/codex/codecs.py:generic_mnemonic_factory"]}
{"id": "C49", "title": "SlidingLock gives mutual exclusion", "statement": "At no time are two processes both inside `with SlidingLock(name)`.", "quantifier": "every number of processes and every interleaving of primitive shared-memory operations", "why_tests_cant": "interleavings", "anchors": ["dustgoggles/codex/implements.py:SlidingLock"]}
{"id": "C50", "title": "SlidingLock slots are never shared", "statement": "Two processes that have completed slot selection and not yet released never have the same slot number, and a process inside the lock always owns its lock block.", "quantifier": "every number of processes and interleaving", "why_tests_cant": "interleavings", "anchors": ["dustgoggles/codex/implements.py:SlidingLock._renumber", "dustgoggles/codex/implements.py:SlidingLock.acquire"]}
{"id": "C51", "title": "SlidingLock never deadlocks among live processes", "statement": "From every reachable state there is a continuation in which every process completes its critical section and returns to idle with no lock or marker block left.", "quantifier": "every reachable state of every number of non-crashed processes", "why_tests_cant": "interleavings", "anchors": ["dustgoggles/codex/implements.py:SlidingLock"]}
{"id": "C52", "title": "A holder that dies blocks later acquirers", "statement": "If a process stops while its lock block exists, a process that enters later with a higher slot never acquires, in any schedule in which that block is not removed.", "quantifier": "every schedule", "why_tests_cant": "infinite schedules", "anchors": ["dustgoggles/codex/implements.py:SlidingLock._check_acquirement", "dustgoggles/codex/implements.py:SlidingLock.acquire"]}
{"id": "C53", "title": "Concurrent adds with default locking lose no key", "statement": "If two clients concurrently add different keys with default locking and both return, update() lists both keys.", "quantifier": "every interleaving of primitive operations", "why_tests_cant": "interleavings", "anchors": ["dustgoggles/codex/implements.py:TagIndex.add", "dustgoggles/codex/implements.py:SlidingLock"]}
{"id": "C54", "title": "Deleting from a MetaTagIndex / GridPaper returns", "statement": "del index[key] (and del gridpaper[key]) terminates and removes the key and its value, with default locking.", "quantifier": "every index state and key; refuted: it never returns; true with no_lockout=True", "why_tests_cant": "non-termination cannot be observed by a terminating test", "anchors": ["dustgoggles/codex/implements.py:MetaTagIndex.__delitem__", "dustgoggles/codex/implements.py:TagIndex.__delitem__", "dustgoggles/codex/implements.py:GridPaper.__delitem__"]}
{"id": "C55", "title": "GridPaper reads back the array last set", "statement": "After gp[key] = arr, gp[key] in any client returns an array with arr's shape, dtype and bytes, and other keys are unaffected; overwriting needs the new array to fit in the block first allocated, otherwise TypeError is raised and the old array is kept.", "quantifier": "every history of sets and reads, arrays and clients", "why_tests_cant": "history-quantified", "anchors": ["dustgoggles/codex/implements.py:GridPaper", "dustgoggles/codex/codecs.py:numpy_mnemonic_factory", "dustgoggles/codex/implements.py:MetaTagIndex"]}
{"id": "C56", "title": "GridPaper.set(exists_ok=False) refuses to overwrite", "statement": "set(key, arr, exists_ok=False) stores arr under a new key and raises KeyError without change for an existing key.", "quantifier": "every state and key", "why_tests_cant": "every state", "anchors": ["dustgoggles/codex/implements.py:GridPaper.__setitem__", "dustgoggles/codex/codecs.py:numpy_mnemonic_factory.memorize_array"]}
{"id": "C57", "title": "Dynamic error flags agree with the error log", "statement": "After any sequence of load, reload, compile, define, call and unload operations, call_fail is True exactly when the error log has a call entry, and compile_fail exactly when it has a compile entry.", "quantifier": "every history of operations, sources and call outcomes", "why_tests_cant": "history-quantified", "anchors": ["dustgoggles/dynamic.py:Dynamic", "dustgoggles/dynamic.py:dontcare"]}
{"id": "C58", "title": "An optional Dynamic never raises ordinary exceptions from its function", "statement": "Calling a loaded Dynamic with optional=True returns the function's value, or None after appending exactly one error record when the function raises an Exception; KeyboardInterrupt propagates; _optional overrides the attribute.", "quantifier": "every state and function behaviour", "why_tests_cant": "every state", "anchors": ["dustgoggles/dynamic.py:Dynamic.__call__", "dustgoggles/dynamic.py:dontcare"]}
{"id": "C59", "title": "Dynamic loads at most once unless reloaded or unloaded", "statement": "load() on a loaded Dynamic raises AlreadyLoadedError and changes nothing; a call on an unloaded one loads it first if load_on_call else raises UnreadyError; unload returns it to the unloaded state with empty error log and flags.", "quantifier": "every state", "why_tests_cant": "history-quantified", "anchors": ["dustgoggles/dynamic.py:Dynamic.load", "dustgoggles/dynamic.py:Dynamic.unload", "dustgoggles/dynamic.py:Dynamic._maybe_load_on_call"]}
{"id": "C60", "title": "Dynamic.from_function keeps the function reloadable", "statement": "A Dynamic made by from_function(f) can be unloaded and called again, giving f's behaviour.", "quantifier": "every function", "why_tests_cant": "needs a specific history", "anchors": ["dustgoggles/dynamic.py:Dynamic.from_function"]}
{"id": "C61", "title": "Tracker numbers records consecutively", "statement": "Between clears, the i-th record of history has trackcount i (unless overridden by metadata), and set metadata is merged into every later record with call metadata taking precedence.", "quantifier": "every history of track, set_metadata and clear", "why_tests_cant": "history-quantified", "anchors": ["dustgoggles/tracker.py:Tracker.track", "dustgoggles/tracker.py:Tracker.clear", "dustgoggles/tracker.py:Tracker.set_metadata"]}
{"id": "C62", "title": "Tracker.dump keeps the log file a JSON array", "statement": "After any history of dump and clear, the file is absent or consists of '[', the dumped documents separated by ',\\n', and ']'; each dump appends exactly one document and keeps all earlier ones byte for byte; dump does nothing while paused.", "quantifier": "every history of track, dump, pause and clear", "why_tests_cant": "history-quantified", "anchors": ["dustgoggles/tracker.py:Tracker.dump", "dustgoggles/tracker.py:Tracker.clear"]}
{"id": "C63", "title": "trim_label cuts at the first known ending", "statement": "trim_label returns the head of the file up to and including the first 'END\\r\\n' if there is one, else up to and including the first three NUL bytes, else the whole head or ValueError if raise_for_failure.", "quantifier": "every file content and size limit", "why_tests_cant": "all byte strings", "anchors": ["dustgoggles/scrape.py:trim_label", "dustgoggles/scrape.py:head_file"]}
{"id": "C64", "title": "Cached label loading is stable", "statement": "However the file changes afterwards, the cached loaders return the text seen by the first successful load of that label, and each label is read at most once successfully.", "quantifier": "every history of file modifications and loads", "why_tests_cant": "history-quantified", "anchors": ["dustgoggles/scrape.py:cached_label_loader", "dustgoggles/scrape.py:scrape_from_file", "dustgoggles/scrape.py:cached_label_trimmer"]}
{"id": "C65", "title": "scrape_patterns returns one entry per requested field", "statement": "The result has exactly the requested fields (None where the pattern does not match), overridden and extended by the supplemental function's mapping; bulk_scrape_metadata returns one result per file in order.", "quantifier": "every pattern mapping, text and supplemental function", "why_tests_cant": "all mappings", "anchors": ["dustgoggles/scrape.py:scrape_patterns", "dustgoggles/scrape.py:bulk_scrape_metadata", "dustgoggles/scrape.py:make_scraper"]}
{"id": "C66", "title": "Integer downcasting is lossless and minimal", "statement": "For a non-empty integer array, downcast returns an integer dtype, unsigned exactly when all values are non-negative, that represents every element, of the smallest width of 8, 16, 32, 64 that does so; it never fails for values within int64 or uint64.", "quantifier": "every non-empty array of 64-bit integers", "why_tests_cant": "all arrays", "anchors": ["dustgoggles/pivot.py:_downcast_int_array", "dustgoggles/pivot.py:check_in_dtype_bounds"]}
{"id": "C67", "title": "Float downcasting stays within tolerance", "statement": "When downcast returns a recast with errors, they are at most atol and rtol, the chosen type is the first in the search order that satisfies bounds and tolerances, and an array that no narrower type can hold keeps its dtype.", "quantifier": "every array and every casting behaviour", "why_tests_cant": "all arrays", "anchors": ["dustgoggles/pivot.py:downcast"]}
{"id": "C68", "title": "check_and_drop_duplicate_columns rejects unequal duplicates", "statement": "Returns the frame with only the first column of each name when equal-named columns are equal-valued, and raises ValueError otherwise.", "quantifier": "every frame", "why_tests_cant": "all frames", "anchors": ["dustgoggles/pivot.py:check_and_drop_duplicate_columns"]}
{"id": "C69", "title": "extract_constants separates constant from varying columns", "statement": "A column is classified constant exactly when its non-null values are all equal (or it has none); constants and variables partition the columns in order; the dict maps each constant column to its constant value.", "quantifier": "every frame", "why_tests_cant": "all frames", "anchors": ["dustgoggles/pivot.py:extract_constants"]}
{"id": "C70", "title": "split_on is a partition of the rows", "statement": "split_on(df, predicate) returns the rows where predicate is True and the rows where it is False, in order, and together they contain every row once.", "quantifier": "every frame and boolean predicate", "why_tests_cant": "all frames", "anchors": ["dustgoggles/pivot.py:split_on"]}
{"id": "C71", "title": "read_between returns exactly the rows in the half-open range", "statement": "When row-group statistics bound their groups' values, read_between(f, field, (lo, hi), recs) is the concatenation in file order of the rows with lo <= value < hi, or None when no group can contain any; pruning by statistics drops no such row.", "quantifier": "every file layout, bounds and statistics", "why_tests_cant": "all layouts", "anchors": ["dustgoggles/mosaic.py:read_between"]}
{"id": "C72", "title": "sort_chunked writes a sorted permutation of the input", "statement": "For ascending order and n_chunks >= 2 the output rows are a permutation of the input rows with non-null sort value and are sorted by the sort column over the whole file.", "quantifier": "every file layout and chunk count (refuted for descending)", "why_tests_cant": "all layouts and boundary coincidences", "anchors": ["dustgoggles/mosaic.py:sort_chunked", "dustgoggles/mosaic.py:read_between"]}
{"id": "C73", "title": "NestingDict.todict changes the NestingDict only in the class of its lower levels", "statement": "Calling nd.todict() (whose docstring warns that it may permanently modify lower levels) leaves nd a NestingDict with the same keys in the same order and the same scalar values at every position; the only change is that levels below the top become plain dicts, which no longer create missing keys.", "quantifier": "every NestingDict", "why_tests_cant": "all nestings and later uses", "anchors": ["dustgoggles/structures.py:NestingDict.todict", "dustgoggles/structures.py:dig_and_edit"]}
{"id": "C74", "title": "A MaybePool can be reused for another map", "statement": "After any map, a second map(func, recs) and get() on the same MaybePool give the same results as on a fresh pool.", "quantifier": "every sequence of two maps, chunked or not", "why_tests_cant": "needs histories of calls with different modes", "anchors": ["dustgoggles/structures.py:MaybePool.map", "dustgoggles/structures.py:MaybePool.get"]}
{"id": "C75", "title": "MaybePool.map computes every record of any iterable of records", "statement": "map accepts any iterable of records (list or generator) and get() has an entry for each of them.", "quantifier": "every iterable of records, every mode", "why_tests_cant": "a generator in each mode is a different run; the loss is silent", "anchors": ["dustgoggles/structures.py:MaybePool.map"]}
{"id": "C76", "title": "map_into_pool returns every result, and filter_exc removes exactly the exceptions", "statement": "map_into_pool(func, recs, threads, filter_exc, as_chunks) returns {key: result} in record order; with filter_exc=True it omits exactly the entries that are exceptions.", "quantifier": "every list of records with distinct keys, every func (non-raising for chunked pools), every thread count", "why_tests_cant": "all record lists and thread counts", "anchors": ["dustgoggles/structures.py:map_into_pool"]}
{"id": "C77", "title": "filtern, naturals and catch_interaction", "statement": "filtern(f, xs) is the first element of xs satisfying f and raises StopIteration exactly when there is none; naturals() yields 1, 2, 3, ...; catch_interaction returns the default exactly when noninteractive is truthy and else behaves as the call.", "quantifier": "every list and predicate, every index", "why_tests_cant": "unbounded sequences", "anchors": ["dustgoggles/func.py:filtern", "dustgoggles/func.py:naturals", "dustgoggles/func.py:catch_interaction"]}
{"id": "C78", "title": "A key left behind by a failed Notepad set cannot be deleted", "statement": "If set of a key that is not live fails because the value cannot be stored, keys() then lists the key for every client, del of it raises KeyError for every client and changes nothing, and close() can raise KeyError and leave the index in memory.", "quantifier": "every notepad state, client, key and unstorable value", "why_tests_cant": "every state", "anchors": ["dustgoggles/codex/implements.py:Notepad.__setitem__", "dustgoggles/codex/implements.py:Notepad.__delitem__", "dustgoggles/codex/implements.py:Notepad.close"]}
{"id": "C79", "title": "A Dynamic built from source does what the function its source defines does", "statement": "For a source that defines a function, Dynamic(source)(*args, **kwargs) gives the result, exceptions and effects of calling the function that executing the source would define.", "quantifier": "every source, every arguments, every behaviour of function bodies", "why_tests_cant": "all sources and calls", "anchors": ["dustgoggles/dynamic.py:compile_source", "dustgoggles/dynamic.py:define", "dustgoggles/dynamic.py:get_codechild"]}
{"id": "C80", "title": "A SlidingLock attempt that times out leaves nothing behind", "statement": "With max_spins set, `with lock: body` on a lock that stays held raises TimeoutError without running body and leaves every shared memory block as it was; whenever the attempt without max_spins would succeed, the one with max_spins does the same. With any number of processes and any pattern of timeouts, slots are never shared and all processes can still finish, leaving no lock block.", "quantifier": "every memory state with a held lock and any number of waiters, every max_spins and every earlier use of the lock; every interleaving of any number of processes with timeouts", "why_tests_cant": "interleavings and waiting lines of unbounded length", "anchors": ["dustgoggles/codex/implements.py:SlidingLock.wait", "dustgoggles/codex/implements.py:SlidingLock.__enter__", "dustgoggles/codex/implements.py:SlidingLock.release"]}
{"id": "C81", "title": "max_spins bounds the waiting of each lock acquisition", "statement": "Every attempt on a lock that stays held looks max_spins + 1 times before it raises TimeoutError, however the lock object was used before.", "quantifier": "every held lock, max_spins and earlier number of waits", "why_tests_cant": "needs a reused lock object", "anchors": ["dustgoggles/codex/implements.py:SlidingLock.wait"]}
{"id": "C82", "title": "Mutual exclusion survives lock timeouts", "statement": "In schedules that disturb no doorway (where C49 gives mutual exclusion), processes that give up with TimeoutError do not make it possible for two processes to be inside together.", "quantifier": "every such schedule of any number of processes", "why_tests_cant": "needs a four-process interleaving", "anchors": ["dustgoggles/codex/implements.py:SlidingLock.wait", "dustgoggles/codex/implements.py:SlidingLock.release", "dustgoggles/codex/implements.py:SlidingLock._renumber"]}
{"id": "C83", "title": "Concurrent TagIndex calls take effect one after the other", "statement": "Any number of processes share a TagIndex with the default SlidingLock, each making add and remove calls that it may choose from the outcomes of its earlier calls. Then there is a single sequence of all the calls, made one at a time on an ordered list of distinct keys, in which every call has the outcome its caller saw; each process's calls are in its own order, and every call of a process that has returned comes before any call of a process that has not yet started. When all have returned, update() lists what that sequence leaves.", "quantifier": "all numbers of processes, adaptive scripts of add/remove calls, schedules of single shared-memory operations, starting lists, stale-free lock states", "why_tests_cant": "Linearizability is a statement about all interleavings of all scripts; a test runs a few, with timing it does not control.", "anchors": ["dustgoggles/codex/implements.py:TagIndex.add", "dustgoggles/codex/implements.py:ShareableIndex.remove", "dustgoggles/codex/implements.py:SlidingLock.acquire", "dustgoggles/codex/implements.py:SlidingLock.release"]}
{"id": "C84", "title": "A MetaTagIndex is an ordered dictionary of optional metadata", "statement": "For every history of non-overlapping calls on a new MetaTagIndex: add appends a new key with its metadata (if any) and returns its position, replaces the metadata of a listed key when given some and exists_ok, and raises FileExistsError without effect when exists_ok=False; index[key] gives the metadata as written, KeyError for an unlisted key and FileNotFoundError for a key without metadata; removal moves the last key and its metadata into the hole; items(), keys() and values() list in order. Removing a key always removes it, but raises FileNotFoundError when neither it nor the last key has metadata. No block outside the index is touched.", "quantifier": "all histories of add/get/remove/items/keys/values, all keys, metadata, lock kinds for add (removal without lock)", "why_tests_cant": "Metadata blocks are numbered by position and move on removal; only an invariant over all histories shows that every key keeps its own metadata.", "anchors": ["dustgoggles/codex/implements.py:MetaTagIndex.add", "dustgoggles/codex/implements.py:MetaTagIndex.__getitem__", "dustgoggles/codex/implements.py:MetaTagIndex.__delitem__", "dustgoggles/codex/implements.py:MetaTagIndex.items", "dustgoggles/codex/implements.py:MetaTagIndex.keys", "dustgoggles/codex/implements.py:MetaTagIndex.values"]}
{"id": "C85", "title": "Notes at one address are one cell with remembered reads", "statement": "For every history of non-overlapping calls on Sticky objects of one address: Sticky.note and stick store the object for all, or raise ValueError without effect when the address holds an object of another encoded size; read gives the object stored, or None when there is none, and a note goes on giving what it has read or stuck until it is read with reread=True (also after the cell changed or was closed); close removes the object for everyone and a second close raises FileNotFoundError. No other block is touched.", "quantifier": "all histories of Sticky(...), Sticky.note, read, stick, close by any number of notes; all objects the codec writes and reads back", "why_tests_cant": "Stale reads depend on which note read last and when; unit tests pin one or two orders.", "anchors": ["dustgoggles/codex/implements.py:Sticky.note", "dustgoggles/codex/implements.py:Sticky.read", "dustgoggles/codex/implements.py:Sticky.stick", "dustgoggles/codex/implements.py:Sticky.close"]}
{"id": "C86", "title": "A GridPaper store cut short", "statement": "When a process executing gp[key] = array is killed after any number of operations on shared memory (or a reader looks in between, which no lock prevents), every other key reads as before in every client, and the key being stored reads as before or gives the new array.", "quantifier": "all GridPapers in use after any history, all keys and arrays, every moment at which the storing process is killed, all clients", "why_tests_cant": "There is one observable moment per primitive operation and the outcome depends on which blocks exist at it; tests do not kill a process between two lines.", "anchors": ["dustgoggles/codex/implements.py:GridPaper.set", "dustgoggles/codex/implements.py:GridPaper.__setitem__", "dustgoggles/codex/implements.py:MetaTagIndex.add", "dustgoggles/codex/implements.py:TagIndex._add", "dustgoggles/codex/implements.py:TagIndex.check"]}
{"id": "C87", "title": "A GridPaper deletion cut short", "statement": "When a process executing del gp[key] (without lock, since with it deletion never returns) is killed after any number of operations on shared memory, every other key reads as before in every client, and the deleted key reads as before or raises KeyError.", "quantifier": "all GridPapers in use after any history without locks, all keys, every moment at which the deleting process is killed, all clients", "why_tests_cant": "Deletion moves the last entry into the hole in some twenty operations; each prefix of them is a distinct memory.", "anchors": ["dustgoggles/codex/implements.py:GridPaper.__delitem__", "dustgoggles/codex/implements.py:MetaTagIndex.__delitem__", "dustgoggles/codex/implements.py:TagIndex._delitem", "dustgoggles/codex/implements.py:GridPaper.__getitem__"]}
{"id": "C88", "title": "Sends to lists and dicts", "statement": "If a step's last send goes to a list without pointer, and nothing else in the pipeline changes that list, then after any series of runs (some of which may fail) the list has grown by exactly the step's outputs, put through the pipe, one for each run in which the step and its sends succeeded, in order. With an integer pointer within the list, that element (counted from the end if negative) is the latest such output and all others are unchanged; with one out of range no run gets past the step and the list stays as it was. A dict has the latest such output under the pointer and everything else as before.", "quantifier": "all pipelines, steps, pipes, targets and pointers, all series of runs", "why_tests_cant": "The claim is about every pipeline around the sending step and every series of runs with failures in them.", "anchors": ["dustgoggles/composition.py:Composition._perform_sends", "dustgoggles/composition.py:Composition.place_into", "dustgoggles/composition.py:Composition.itercall"]}
{"id": "C89", "title": "sort_chunked's inline_processor", "statement": "What sort_chunked writes with an inline_processor is what it would write without one, cut into fewer than n_chunks consecutive nonempty pieces, each put through the processor. The pieces depend on the data and n_chunks only, so a processor working row by row gives the same file as processing the sorted file afterwards; the processor is never given an empty table.", "quantifier": "all files, columns, numbers of chunks and (non-raising) processors", "why_tests_cant": "The pieces depend on the data; a test compares one file with one processor.", "anchors": ["dustgoggles/mosaic.py:sort_chunked"]}
{"id": "C90", "title": "A process's own keys on a shared Notepad", "statement": "When several processes use one Notepad, a process whose keys no other process names finds under them exactly what its own calls left there: reading gives the last value it set (FileNotFoundError if there is none, KeyError for a stored None), a set that returns has stored its value and one that raises has changed nothing, set with exists_ok=False returns only if the key had no value, a deletion of a key without value raises KeyError and any other deletion removes the value (it never says FileNotFoundError). This needs no lock, and holds whatever the other processes do to their keys and to the index, in whatever order the operations are interleaved, and wherever other processes are stopped.", "quantifier": "all numbers of processes, scripts of get/set/del/keys chosen from earlier outcomes, lock modes (also none), schedules, initial contents", "why_tests_cant": "The interleavings and stopping points are unbounded, and the index is shared and can be corrupted by races.", "anchors": ["dustgoggles/codex/implements.py:Notepad.set", "dustgoggles/codex/implements.py:Notepad.__getitem__", "dustgoggles/codex/implements.py:Notepad.__delitem__", "dustgoggles/codex/codecs.py:generic_mnemonic_factory", "dustgoggles/codex/memutilz.py:delete_block"]}
{"id": "C91", "title": "Reading a Notepad key that other processes set", "statement": "However many processes set, delete, list and read the keys of one Notepad, with or without locks: a read of a key gives FileNotFoundError, or decodes bytes of which each one is zero or belongs to one single value. That value was stored at the beginning, or some process has begun to set it under this key. Bytes of two values are never mixed, nor are those of two keys, even when copies into and out of blocks are in progress byte by byte. When copies are not interrupted, the bytes are all of the value or all zero. The same holds of what is left under each key. More cannot be had: a reader of a key whose value is being replaced may find no value, zeros, or part of the new value.", "quantifier": "all numbers of processes, scripts chosen from earlier outcomes, keys not beginning with \"index\", lock modes, codecs, schedules (processes may be stopped anywhere)", "why_tests_cant": "Torn reads show up only under particular interleavings of operations and bytes, which a test cannot enumerate.", "anchors": ["dustgoggles/codex/implements.py:Notepad.__getitem__", "dustgoggles/codex/implements.py:Notepad.__setitem__", "dustgoggles/codex/codecs.py:generic_mnemonic_factory", "dustgoggles/codex/memutilz.py:open_block", "dustgoggles/codex/memutilz.py:fetch_block_bytes"]}
{"id": "C92", "title": "downcast_df keeps rows together", "statement": "downcast_df returns the same table with the numeric columns cast: the same row labels, the same columns, and every cell in its row. This is false: numeric columns come back labelled 0, 1, \u2026 and are then joined by label, so in a table that has been sorted or filtered the numbers are given to other rows, silently, or rows with nulls appear. It holds where rows are labelled 0, 1, \u2026 or no column is numeric. If all columns are numeric the labels are replaced by 0, 1, \u2026 . If some are and a label repeats, ValueError is raised. A column that downcast returns as a bare array raises IndexError.", "quantifier": "all tables, labels, casts", "why_tests_cant": "A test with the default labels never shows the loss; which rows are exchanged depends on the labels.", "anchors": ["dustgoggles/pivot.py:downcast_df", "dustgoggles/pivot.py:_maybeseries", "dustgoggles/pivot.py:downcast"]}
{"id": "C93", "title": "squeeze keeps one value per label", "statement": "squeeze of a Series that is not boolean keeps each label once, in order, with its first value. Of a boolean Series it gives each label once, sorted, with true just if the label had true somewhere. No label is lost. This last is false of boolean Series: null labels are dropped with their values.", "quantifier": "all Series with one level of labels, all total orders of labels", "why_tests_cant": "Statement about every label of every Series.", "anchors": ["dustgoggles/pivot.py:squeeze"]}
{"id": "C94", "title": "typed_columns selects by dtype", "statement": "Of a frame whose columns have distinct names, typed_columns gives just the columns, in order and with all rows, whose dtype name begins with a given name or with u and a given name; so numeric_columns gives just the columns of numeric dtypes. The latter is false: columns of intervals are given too. It holds where no other dtype name begins with int, uint, float. A Series of unsigned integers counts as not numeric though such a column counts as numeric. Where names repeat, columns of other dtypes are given and columns are given twice.", "quantifier": "all frames, dtypes and type names without special characters", "why_tests_cant": "Statement about every dtype name and every frame.", "anchors": ["dustgoggles/pivot.py:typed_columns", "dustgoggles/pivot.py:numeric_columns"]}
{"id": "C95", "title": "unique_to_records and junction give distinct rows", "statement": "unique_to_records gives a table of the named columns that has every distinct row once; junction gives each row of the first table that is not in the second once. Rows with a null are never among them: for unique_to_records this makes the claim false. If no row is complete, the table has no columns at all.", "quantifier": "all tables, names and orders of rows", "why_tests_cant": "Statement about every row of every table.", "anchors": ["dustgoggles/pivot.py:unique_to_records", "dustgoggles/pivot.py:junction"]}
{"id": "C96", "title": "dupe_df_block repeats rows", "statement": "dupe_df_block gives a table with the same columns in which row k is row k // repeats of the given table; rows are labelled 0, 1, \u2026 . So each row comes as often as asked, next to its copies, and no other row.", "quantifier": "all tables and numbers of repetitions", "why_tests_cant": "Statement about every row of every table.", "anchors": ["dustgoggles/pivot.py:dupe_df_block"]}
{"id": "C97", "title": "downcast's reported error is exact", "statement": "If downcast returns a float64 array cast to another dtype with errors, each finite element of the cast array is within the reported absolute error of the element given, and for some element it is just that far off, though the error was computed with rounding. Relative errors are at most the reported one but for the rounding of one division. Both are within the tolerances. So with atol=0 no value changes at all. Integers are cut towards zero; floats become the nearest number of the format, of two the even one. And the dtype chosen is the one of fewest bytes that will do: this is false, as 2**40 becomes uint64, of eight bytes as before, though it is a float32; it holds among dtypes of the same kind.", "quantifier": "all float64 arrays, tolerances, options", "why_tests_cant": "Statement about every rounding of every float64.", "anchors": ["dustgoggles/pivot.py:downcast", "dustgoggles/pivot.py:check_in_dtype_bounds"]}
{"id": "C98", "title": "Trackers with the same log file", "statement": "Trackers of the same name, in several processes, dump to the same file. If their dumps end, none raises, and the file is a JSON list of the documents that were there and all those dumped. This is false: two dumps that find no file leave only one document; two that add at once leave broken JSON; a dump during a clear is lost; none of these raises. It holds of any number of dumps that do not overlap, however their bytes are written in pieces. And dumps that overlap or are killed halfway never damage the documents that were in the file before them.", "quantifier": "all schedules of any number of processes, all sizes of writes, killed or not", "why_tests_cant": "Statement about every interleaving of file operations.", "anchors": ["dustgoggles/tracker.py:Tracker.dump", "dustgoggles/tracker.py:Tracker.clear"]}
{"id": "C99", "title": "Arrays that GridPaper.get does not copy", "statement": "What `gp.get(key)` gives is the array last stored under the key, and stays as it was whatever is done with the GridPaper afterwards. This is false: `get` does not copy by default, so what it gives is the shared block. As long as the key is not removed it shows the key's current array (of a smaller one, its bytes and old ones), and writing into it changes the key's array for every client. Once the key is deleted or the GridPaper closed, it never changes again, even if the key is stored anew, and writing into it reaches nobody. It stays as it was as long as nothing is stored under the key.", "quantifier": "all histories of calls by any clients before and after the get, all keys, arrays and data written", "why_tests_cant": "Statement about every history of calls after the get, by any client.", "anchors": ["dustgoggles/codex/implements.py:GridPaper.get", "dustgoggles/codex/implements.py:GridPaper.__getitem__", "dustgoggles/codex/implements.py:GridPaper.__delitem__", "dustgoggles/codex/codecs.py:numpy_mnemonic_factory"]}
{"id": "C100", "title": "What the JSON codec keeps", "statement": "Whatever `encode` of the JSON codec accepts, `decode` gives back as it was. This is false: tuples come back as lists, keys that are not strings as strings, items whose key strings coincide as one item with the last value, and adjacent surrogates as one character, all without complaint. Exactly the values free of these come back as they were; what came back from any value comes back unchanged from then on. `encode` raises TypeError for other types and keys and ValueError for integers with more digits than the interpreter writes, and for nothing else; its bytes are never empty and are ASCII without zeros.", "quantifier": "all Python values built from None, booleans, integers, floats, strings, bytes, lists, tuples, sets and dicts, nested to any depth, and all digit limits", "why_tests_cant": "Statement about every nested value; encoder and decoder have to agree on all of them, and `iff` cannot be tested.", "anchors": ["dustgoggles/codex/codecs.py:json_codec_factory"]}
{"id": "C101", "title": "GridPapers with the JSON codec", "statement": "The metadata of every array (name, type, shape, size) come back from the JSON codec as they were, though the shape is stored as a list, unless one of their numbers has more digits than the interpreter writes. So a GridPaper with the codec it really uses is a dictionary of the arrays that are neither empty nor 0-dimensional.", "quantifier": "all arrays, keys, prefixes and all histories of calls by any clients", "why_tests_cant": "Statement about every array and history of calls.", "anchors": ["dustgoggles/codex/codecs.py:numpy_mnemonic_factory", "dustgoggles/codex/codecs.py:json_codec_factory", "dustgoggles/codex/implements.py:MetaTagIndex", "dustgoggles/codex/implements.py:GridPaper"]}
{"id": "C102", "title": "The log file of a Tracker, read as JSON", "statement": "Whatever is done with Trackers one after the other on a file, `json.loads` of the file gives the list of the documents dumped since the last clear (name, times, records with their metadata, each as JSON keeps it), and there is no file if there are none. This is true if no dump raises, in particular if everything tracked can be written as JSON. One dump that raises spoils the file: whatever is tracked and dumped afterwards, by this or later Trackers, `json.loads` raises ValueError until somebody clears.", "quantifier": "all sequences of Trackers, operations, names, metadata and nested values", "why_tests_cant": "Statement about every history and every value tracked; that a spoiled file stays spoiled is a statement about all futures.", "anchors": ["dustgoggles/tracker.py:Tracker.dump", "dustgoggles/tracker.py:Tracker.track", "dustgoggles/tracker.py:Tracker.clear", "dustgoggles/tracker.py:Tracker.set_metadata"]}
{"id": "C103", "title": "What the AST codec keeps", "statement": "`ast_codec_factory`'s `encode` accepts every value whose integers the interpreter can write (a string only without surrogates) and else raises ValueError. A value of the built-in types other than a string, without nan and infinities and not nested deeper than source code may be, is decoded to itself: tuples, sets, bytes and keys of any type are kept, unlike with JSON. A value with nan or an infinity anywhere in it is encoded without complaint and raises ValueError when decoded. A string is not kept at all: it is evaluated, so the text of a literal comes back as that literal's value and a word raises ValueError.", "quantifier": "all values of the built-in types, nested to any depth", "why_tests_cant": "Statement about every nested value; repr and the parser have to be inverse for all strings, with all their escapes.", "anchors": ["dustgoggles/codex/codecs.py:ast_codec_factory"]}
{"id": "C104", "title": "scrape_subframe returns the numbers of the first SUBFRAME block", "statement": "`scrape_subframe(text)` looks at the text from the first SUBFRAME through the first END after it, and returns the tuple of all its runs of digits as numbers, in order. This holds if there are at least two and none has leading zeros (or digits that are not ASCII, or too many digits). With one it returns the number itself and no tuple; with none, or a numeral such as 012, it raises SyntaxError; without such a block AttributeError.", "quantifier": "all texts", "why_tests_cant": "Statement about every text; that the lazy pattern finds the first END after the first SUBFRAME is a statement about all positions.", "anchors": ["dustgoggles/scrape.py:scrape_subframe"]}
{"id": "C105", "title": "What a scraped group becomes", "statement": "`make_scraper(text)(pattern)`: a group that is the text of a value of the built-in types gives that value; a word, or a text with nan or infinities in it, stays a string. A group None gives None, so the result does not tell whether the pattern was found.", "quantifier": "all texts, patterns, and values nested to any depth", "why_tests_cant": "Statement about every nested value and every word.", "anchors": ["dustgoggles/scrape.py:make_scraper"]}
{"id": "C106", "title": "Deactivating the resource tracker keeps blocks in place", "statement": "After `deactivate_shared_memory_resource_tracker()` the end of a process removes no shared memory block. This holds if all processes of the tracker call it before they open any block (or are forked by one that has). It does not if the process has opened a block before: that name is removed when the process ends, even if the block has been deleted since and another process has made a new one of that name.", "quantifier": "all histories of starts, operations, deactivations and ends of any number of processes with any trackers", "why_tests_cant": "Quantifies over all interleavings of processes and over process exits; a test runs inside one process and cannot see what its own end removes.", "anchors": ["dustgoggles/codex/memutilz.py:deactivate_shared_memory_resource_tracker"]}
{"id": "C107", "title": "Ending a process that only reads removes nothing", "statement": "A process that has only read shared memory leaves all blocks in place when it ends. This holds while another process of the same tracker (a descendant of the same parent) is running. A process with a tracker of its own that has read one key of a notepad removes the value when it ends: every later read, by any client, raises FileNotFoundError.", "quantifier": "all histories; all notepads, keys, codecs and states of memory", "why_tests_cant": "Concerns the exit of unrelated processes, in every order.", "anchors": ["dustgoggles/codex/memutilz.py:deactivate_shared_memory_resource_tracker", "dustgoggles/codex/implements.py:Notepad.__getitem__"]}
{"id": "C108", "title": "No shared memory is left over", "statement": "If no process deactivates the tracker, then after all processes have ended no block is left that was not there before, whatever they have done and in whatever order they have ended. This holds for names that are ASCII without colon or newline. A block whose name has a colon (a key such as 12:30) is never entered in the tracker's set and stays.", "quantifier": "all histories of any number of processes and trackers in which every started process ends", "why_tests_cant": "Statement about every interleaving including abnormal ends; leaks show up only after the test process is gone.", "anchors": ["dustgoggles/codex/memutilz.py:deactivate_shared_memory_resource_tracker", "dustgoggles/codex/implements.py:Notepad.__setitem__"]}
{"id": "C109", "title": "A notepad takes keys of any text", "statement": "Setting a key of a notepad succeeds whatever its text. This holds in a process that has deactivated the resource tracker, and in every process for ASCII prefixes and keys: all calls then do what they do without a tracker. Otherwise setting a new key that is not ASCII raises UnicodeEncodeError and leaves the key listed by keys() with a value block of zeros, and getting it raises UnicodeEncodeError.", "quantifier": "all programs of shared memory operations; all notepads after any history, all keys, values, codecs and states of the tracker", "why_tests_cant": "Quantifies over all keys, all histories and both states of the tracker; the outcome depends on the platform's tracker.", "anchors": ["dustgoggles/codex/implements.py:Notepad.__setitem__", "dustgoggles/codex/implements.py:Notepad.__getitem__", "dustgoggles/codex/memutilz.py:open_block", "dustgoggles/codex/memutilz.py:deactivate_shared_memory_resource_tracker"]}
{"id": "C110", "title": "Deactivating the tracker concerns shared memory only", "statement": "After `deactivate_shared_memory_resource_tracker()` resources of other kinds are registered and unregistered as before. On Windows this holds (the function does nothing). Elsewhere every registration of another kind, such as the semaphore of a lock, queue or pool under spawn or forkserver, raises NameError.", "quantifier": "all resource kinds, names and commands", "why_tests_cant": "Statement about all resource kinds, including ones the library does not use itself.", "anchors": ["dustgoggles/codex/memutilz.py:deactivate_shared_memory_resource_tracker"]}
{"id": "C111", "title": "wrap_piped returns what the function returns, or the exception it raises", "statement": "`wrap_piped(func)(*args)` runs func in a child process and ends with its result, or with the exception object if it raised one, whatever the order in which the two processes run. This holds if the pickled result with its header (4 bytes more) fits in the buffer of the pipe. If it does not, the call never ends: the parent waits for the end of the child, the child for room in the pipe. A raised exception is returned, not raised, so it cannot be told from one that was returned.", "quantifier": "all results, codecs, buffer sizes, and all interleavings of the two processes", "why_tests_cant": "Deadlock freedom over all schedules and sizes; a test with a large result hangs instead of failing.", "anchors": ["dustgoggles/test_utils/core.py:piped", "dustgoggles/test_utils/core.py:wrap_piped"]}
{"id": "C112", "title": "wrap_piped ends when the child has ended", "statement": "Once the child process has ended, the call ends, with an error if nothing was sent. This holds if a message was sent. If the child is killed or interrupted, or its result cannot be pickled, the call hangs in recv() for good, since the parent itself holds the sending end open.", "quantifier": "all functions, codecs and interleavings", "why_tests_cant": "A hang over all schedules; depends on who holds which end of a pipe.", "anchors": ["dustgoggles/test_utils/core.py:piped", "dustgoggles/test_utils/core.py:wrap_piped"]}
{"id": "C113", "title": "A process from wrap_piped(block=False) can be joined", "statement": "The process object that `wrap_piped(func, block=False)` returns ends by itself and can be joined. This holds if the result fits in the buffer of the pipe. Otherwise it never ends, because nothing reads the pipe.", "quantifier": "all results, codecs, buffer sizes and interleavings", "why_tests_cant": "Termination over all result sizes.", "anchors": ["dustgoggles/test_utils/core.py:piped", "dustgoggles/test_utils/core.py:wrap_piped"]}
{"id": "C114", "title": "smash labels each cell so that it can be found", "statement": "`smash(df, by, values)` gives one entry for each column not in `by` and each row whose cells in the columns `by` are all among `values`, column after column; its value is the cell, its label the texts of the row's `by` cells and the column's name joined by underscores. If no two rows have the same `by` texts, labels are distinct, so that the label finds the cell. This holds if the `by` texts have no underscore. Otherwise rows such as ('a_b', 'c') and ('a', 'b_c') get the same label.", "quantifier": "all frames with distinct column names, all texts, all lists of columns and of values", "why_tests_cant": "Ambiguity of joined names depends on particular pairs of texts; tests use tidy names.", "anchors": ["dustgoggles/pivot.py:smash"]}
{"id": "C115", "title": "unpack puts lists into columns", "statement": "`unpack(series)` keeps the rows that are not null, in order, under their labels. It has columns name_0, name_1, \u2026, with distinct names, as many as the longest list is long, and in each row the elements of the row's list, then nulls.", "quantifier": "all Series of lists and nulls, all lengths of lists", "why_tests_cant": "Holds for lists of all lengths, ragged ones too.", "anchors": ["dustgoggles/pivot.py:unpack"]}
{"id": "C116", "title": "unpack_column replaces a column and nothing else", "statement": "`unpack_column(df, name)` returns df without the column and with the columns its lists are unpacked to at the end, null in rows without a list, other columns as they were, and leaves df as it is. This holds of what is returned if row labels are distinct and no column is called like a new one. The frame passed in gets the new columns too; a column called like a new one loses cells; a null row with the label of another row gets that row's elements; two lists under one label raise ValueError.", "quantifier": "all frames with distinct column names, all lists", "why_tests_cant": "Aliasing of the argument, clashes of names and repeated labels are rarely in tests.", "anchors": ["dustgoggles/pivot.py:unpack", "dustgoggles/pivot.py:unpack_column"]}
{"id": "C117", "title": "meta_column_df describes every column of a parquet file", "statement": "`meta_column_df(fn)` has one column for each column of the file, in order, under its path, with compressed and uncompressed size and number of values added up over all row groups, and type, encodings, compression and so on where all row groups agree, null where they differ. This holds for files with statistics. One column chunk without statistics makes it raise TypeError (so does sort_chunked, which reads the same records).", "quantifier": "all numbers of columns and row groups, all metadata", "why_tests_cant": "Files with many row groups, and files written without statistics, are not in tests.", "anchors": ["dustgoggles/mosaic.py:parquet_metadata_records", "dustgoggles/mosaic.py:_flatten_meta_df", "dustgoggles/mosaic.py:meta_record_df", "dustgoggles/mosaic.py:meta_column_df"]}
{"id": "C118", "title": "meta_column_df counts values", "statement": "`num_values` is the number of values that the column chunks state, added up. This holds if the statistics state the same number. They count values that are not null, and replace the chunk's own number.", "quantifier": "all files as in C117", "why_tests_cant": "Needs columns with nulls and a look at which of two equally named fields wins.", "anchors": ["dustgoggles/mosaic.py:parquet_metadata_records", "dustgoggles/mosaic.py:_flatten_meta_df", "dustgoggles/mosaic.py:meta_record_df", "dustgoggles/mosaic.py:meta_column_df"]}
{"id": "C119", "title": "meta_column_df(extended=True) gives a table", "statement": "`meta_column_df(fn, extended=True)` gives a table, with one column of each name, whenever extended=False does. This holds for files with one row group, and for files where in no column a size or the number of values is the same in all row groups; then every field is given where row groups agree. Otherwise that field is both among the constants and among the sums: it comes twice, or, if not so in all columns, ValueError is raised.", "quantifier": "all files as in C117", "why_tests_cant": "Whether sizes coincide depends on the data; equally large row groups are common.", "anchors": ["dustgoggles/mosaic.py:parquet_metadata_records", "dustgoggles/mosaic.py:_flatten_meta_df", "dustgoggles/mosaic.py:meta_record_df", "dustgoggles/mosaic.py:meta_column_df"]}
{"id": "C120", "title": "random_nested_dict makes nested dicts with as many leaves as asked for", "statement": "`random_nested_dict(quantity, maxdepth, types, keytypes)` returns a nested plain dict with exactly `quantity` leaves, none deeper than `maxdepth`, with keys drawn from `keytypes` and values drawn from `types`. This holds whatever the random choices are, if the generators raise nothing and no key drawn in one round comes up in another. In general, what is returned has between one and `quantity` leaves, the leaves being the writes nothing was written over later; AttributeError or TypeError are raised when a path runs into a leaf. Without `keytypes`, keys are drawn from all classes in `types`, hashable or not.", "quantifier": "all quantities, depths, generators and sequences of random choices", "why_tests_cant": "The result depends on random choices; collisions of keys are rare, so that tests pass nearly always.", "anchors": ["dustgoggles/test_utils/core.py:random_nested_dict", "dustgoggles/test_utils/core.py:pick_key_at_level", "dustgoggles/test_utils/core.py:randval"]}
{"id": "C121", "title": "get_label_text reads the beginning of a text", "statement": "`get_label_text(fn, byte_size)` of a file in UTF-8 returns the part of its text that fits into the first `byte_size` bytes; a negative or large limit gives the whole text. This holds if the limit falls between two characters, so for every ASCII file. Inside a character, UnicodeDecodeError is raised.", "quantifier": "all texts and all limits", "why_tests_cant": "Needs a character of several bytes exactly at the limit.", "anchors": ["dustgoggles/scrape.py:get_label_text"]}
{"id": "C122", "title": "trim_label finds the end of a label before binary data", "statement": "`trim_label(fn)` of a file that starts with a text label, whose last line is END and carriage return and line feed, and goes on with any bytes, returns the label. This holds if no other line ends in END. Otherwise the label is cut after the first such line, e.g. one ending in LEGEND. END and a line feed alone is not found: binary data after it raises UnicodeDecodeError.", "quantifier": "all labels in UTF-8, all bytes after them, all size limits that cover the label", "why_tests_cant": "Arbitrary binary data and arbitrary label lines.", "anchors": ["dustgoggles/scrape.py:trim_label"]}
{"id": "C123", "title": "gmap calls a function once per row", "statement": "`gmap(func, *iterables)` returns the tuple of what `func` returns for the first elements, the second elements and so on, up to the length of the shortest iterable, calling it once for each, in order. If a call raises, that is raised, there are no further calls, and all iterators are left after that row; only a StopIteration is not raised but ends the result there, as if the iterables ended. Afterwards an iterator before the first shortest one has lost one element more than the others. Without iterables, TypeError is raised. A triggerized function hands on the state it is given.", "quantifier": "all functions, all numbers and lengths of iterables", "why_tests_cant": "Unequal lengths in all orders, and what is left of iterators, are not in tests.", "anchors": ["dustgoggles/func.py:gmap", "dustgoggles/func.py:triggerize"]}
{"id": "C124", "title": "get_from_all gets one value per mapping", "statement": "`get_from_all(key, mappings, default)` returns one value for each mapping, in order: its value under the key, or the default if it has none. Given a mapping of mappings it takes its values. If one of them has no `get`, AttributeError is raised.", "quantifier": "all keys, mappings and defaults", "why_tests_cant": "Holds for all mixtures of mappings with and without the key.", "anchors": ["dustgoggles/structures.py:get_from_all"]}
{"id": "C125", "title": "Notepad.dump writes a value's bytes to a file", "statement": "After any history of calls on a notepad, `dump(key)` of a key that is there writes to the file (`fn`, or the notepad's prefix and the key with dots turned into underscores and the extension \".pkl\") bytes that decode to the value last set. Memory and other files stay as they were; what the file held before is replaced. If the key is not there, FileNotFoundError is raised, after the file has been emptied or made. If the file cannot be opened, that is raised and nothing changes.", "quantifier": "all histories, keys, values, codecs and file names", "why_tests_cant": "Needs a file that was there before, and a key that is not; tests dump fresh keys to fresh files.", "anchors": ["dustgoggles/codex/implements.py:Notepad.dump", "dustgoggles/codex/implements.py:GridPaper.dump"]}
{"id": "C126", "title": "close(dump=True) saves every value before it is deleted", "statement": "After any history of calls, `close(dump=True)` removes all blocks of the notepad, touches no others, and leaves for every key a file whose bytes decode to its value. This holds if no two keys differ only in dots and underscores, and all files can be opened. If two do, they are dumped to the same file and one value is lost. With a FakeIndex nothing is dumped and nothing deleted, without an exception.", "quantifier": "all histories, keys and values", "why_tests_cant": "Depends on pairs of keys; a test needs exactly such a pair.", "anchors": ["dustgoggles/codex/implements.py:Notepad.close", "dustgoggles/codex/implements.py:Notepad.dump"]}
{"id": "C127", "title": "cleanup_on_exit removes notepads when a process ends", "statement": "After any history of calls on notepads with different prefixes, a process ends that has one client of each of some of them, made with `cleanup_on_exit=True`. Then all blocks of these notepads are gone, all other blocks are as they were, and no exception is printed. With two clients of the same notepad, the second one prints FileNotFoundError twice. A client whose notepad was closed and made anew by others destroys the new index silently, leaving its values in memory. A GridPaper with a key and the default lock keeps the process from ending. A FakeIndex makes it do nothing. A Sticky that was pulled prints FileNotFoundError.", "quantifier": "all histories, any number of notepads, all sets of clients of different notepads", "why_tests_cant": "Happens after the last line of a test, at interpreter exit, and depends on what other processes did.", "anchors": ["dustgoggles/codex/implements.py:AbstractNotepad.__init__", "dustgoggles/codex/implements.py:ShareableIndex.__init__", "dustgoggles/codex/implements.py:TagIndex.close", "dustgoggles/codex/implements.py:Notepad.close", "dustgoggles/codex/implements.py:GridPaper.close", "dustgoggles/codex/implements.py:Sticky.close"]}
{"id": "C128", "title": "MaybePool.map gives one result per record", "statement": "`map_into_pool(func, argrecs, ...)` gives one result for each record, in order, under the record's key: the caller's, or else the place in the list. `map` writes the keys it makes up into the caller's records. So after any earlier calls, a record without a key of its own keeps the place where it stood first in the first list it was in. If two records of a list come to have the same key that way, or one record stands twice in a list, results are lost silently.", "quantifier": "all records, all sequences of calls with all lists of records, all modes", "why_tests_cant": "Needs record dicts that are used again in another list; tests make fresh ones.", "anchors": ["dustgoggles/structures.py:MaybePool.map", "dustgoggles/structures.py:map_into_pool"]}
{"id": "C129", "title": "The counters of a MaybePool bound its progress", "statement": "While workers finish in any order, `n_ready` lies between the number of results ready when it was called and the number ready when it returns, and never decreases from call to call. `n_running` is the rest (results waiting for a worker included) and never negative. If `ready()` returns True, all results are ready from then on; if False, one was not ready when it was called. `results_ready()` is right in the same sense for each key. Without workers everything is ready at once. With chunks there are as many results as workers, not as many as records. After `terminate()`, `ready()` is True and `get()` returns {}.", "quantifier": "all pools, all times at which results get ready, all times at which they are asked", "why_tests_cant": "The counters race with the workers; a test sees one schedule.", "anchors": ["dustgoggles/structures.py:MaybePool.n_ready", "dustgoggles/structures.py:MaybePool.n_running", "dustgoggles/structures.py:MaybePool.n_results", "dustgoggles/structures.py:MaybePool.ready", "dustgoggles/structures.py:MaybePool.results_ready", "dustgoggles/structures.py:MaybePool.terminate"]}
{"id": "C130", "title": "Trackers with different names have different log files", "statement": "`Tracker(name, identifier, outdir)` logs to a file in `outdir` named after the identifier and the name. Trackers with different files do not affect each other, whatever is done to them in whatever order. Different names give different files if the identifier is the same and there are no slashes. Different identifiers do if there are no underscores in them, and no underscores in the names unless all have an identifier. Otherwise two Trackers may write to the same file (\"a\" with \"b_c\", \"a_b\" with \"c\"; no name at all and the name \"None\"). A name beginning with a slash puts the log outside `outdir`; a slash inside it puts it into a directory below, and \"./x\" is the file of \"x\".", "quantifier": "all directories, identifiers and names, all histories of any number of Trackers", "why_tests_cant": "Needs pairs of names, and histories of several Trackers.", "anchors": ["dustgoggles/tracker.py:Tracker.__init__", "dustgoggles/tracker.py:Tracker.dump", "dustgoggles/tracker.py:Tracker.clear"]}
{"id": "C131", "title": "exc_report describes the traceback; dontcare swallows and reports", "statement": "`exc_report(exc)` has one line number, one name and one file for each entry of the traceback, outermost first, and the exception's class and text; with `stringify_exception=False` the exception itself. A function wrapped by `dontcare` returns what the function returns; if that raises an Exception, it returns None and adds one report to the list, beginning with the wrapper's frame. This holds if the exception can be turned into text. If its `__str__` raises, the wrapper raises that, and there is no report.", "quantifier": "all exceptions, tracebacks and functions", "why_tests_cant": "Tracebacks of all depths, and exceptions that cannot be printed.", "anchors": ["dustgoggles/dynamic.py:exc_report", "dustgoggles/dynamic.py:dontcare"]}
{"id": "C132", "title": "digsource finds the source of what is wrapped", "statement": "`digsource(obj)` returns the source text of a function or method (through `functools.wraps`), of a partial of one, or of a Dynamic made from one; OSError is raised if there is no text. For a Dynamic made from source it raises OSError, though the Dynamic has the text. For a partial of a Dynamic and for an unloaded Dynamic it raises TypeError.", "quantifier": "all functions and methods, wrapped any number of times", "why_tests_cant": "Holds for all nestings; the failing ones need particular nestings.", "anchors": ["dustgoggles/dynamic.py:digsource"]}
{"id": "C133", "title": "A Dynamic as a step of a Composition", "statement": "Giving a Composition a Dynamic as a step is like giving it a function that calls the Dynamic. This holds for a Dynamic that is loaded and not optional, if no insert for the step is called `_optional` or `self` and nothing else in the pipeline changes the Dynamic. Otherwise it is false: the Composition takes the Dynamic for a `functools.partial` and calls its attribute `func`. A Dynamic that is not loaded is not loaded, and the step raises TypeError. With `optional=True`, an exception of the function stops the pipeline and is not noted in the Dynamic.", "quantifier": "all Compositions, all Dynamics, all functions, all signals", "why_tests_cant": "Concerns two classes together; each is right on its own.", "anchors": ["dustgoggles/composition.py:Composition.call_step", "dustgoggles/composition.py:Composition._call_partial_step", "dustgoggles/dynamic.py:Dynamic.__call__"]}
{"id": "C134", "title": "A Composition may stand for its steps in another", "statement": "A pipeline in which one step is a Composition does and gives what the pipeline with that Composition's steps in its place does and gives: same result or exception, same sends, in all runs of a series. The sends of the step that is the Composition come after those of its last step. This holds if the inner Composition has at least one step, is not optional, has no tracker and does not send to its own steps, and nothing is sent or inserted from one into the other. It is false of an inner Composition without steps, which gives None instead of handing on the signal; an optional one that fails gives None to the next step instead of stopping the pipeline.", "quantifier": "all Compositions, nested at any place, all signals and series of signals", "why_tests_cant": "A statement about two programs, for all pipelines.", "anchors": ["dustgoggles/composition.py:Composition.__call__", "dustgoggles/composition.py:Composition.execute", "dustgoggles/composition.py:Composition.itercall"]}
{"id": "C135", "title": "Compositions made separately are independent", "statement": "What is done with one Composition (adding steps, sends, inserts, reindexing, running it) does not change another. Each of several Compositions that share no mappings, lists of sends or dicts of inserts does and gives, in any history, what it would on its own, and they go on sharing nothing. Compositions made from sequences of steps, without sends or inserts, share nothing. It is false of Compositions made from the same mapping: a Composition does not copy mappings, so a step or an insert added to one is added to the other and to the mapping, and merely running one, if it sends to its own steps, changes what the other gives.", "quantifier": "all numbers of Compositions, all histories of operations on them", "why_tests_cant": "Sharing shows only in particular histories of several objects.", "anchors": ["dustgoggles/composition.py:Composition.__init__", "dustgoggles/composition.py:Composition.add_step", "dustgoggles/composition.py:Composition.add_send", "dustgoggles/composition.py:Composition.add_insert", "dustgoggles/structures.py:enumerate_as_mapping"]}
{"id": "C136", "title": "The pickle codec gives the value back, with its sharing and cycles", "statement": "The decoder of pickle_codec_factory() applied to what its encoder made, whatever bytes follow (a block may be longer than its content), gives the same value: the same types, the same contents in the same order, objects that were one object are one object, objects that were different are different, cycles are kept. Holds for None, booleans, integers of any size, floats bit by bit, strings (with surrogates), bytes, tuples, lists and dicts, however they hold each other. The encoding is a nonempty string of bytes.", "quantifier": "all object graphs of these types, all sizes, all bytes after the pickle", "why_tests_cant": "Values of any shape and size, with cycles; the sizes at which frames, batches and length fields change are out of reach of tests.", "anchors": ["dustgoggles/codex/codecs.py:pickle_codec_factory"]}
{"id": "C137", "title": "A pickle that was not wholly written is never taken for a value", "statement": "A pickle cut short anywhere and filled up with zeros does not decode: an error is raised. So when a process is killed while setting a key of a Notepad with the default codec, any other key reads as before, and that key reads its old value, or the same value as was given, or raises: never a wrong value.", "quantifier": "all values, all places of the cut, all numbers of zeros, all histories of a Notepad before, all moments of the kill", "why_tests_cant": "Kills at every moment, and every prefix of every pickle.", "anchors": ["dustgoggles/codex/codecs.py:pickle_codec_factory", "dustgoggles/codex/codecs.py:generic_mnemonic_factory.memorize", "dustgoggles/codex/implements.py:Notepad.set", "dustgoggles/codex/implements.py:Notepad.get"]}
{"id": "C138", "title": "The same value has the same pickle, and a Notepad with the default codec is a dictionary of values", "statement": "Two values have the same encoding if and only if they are the same value (same types, contents, order, sharing, cycles). What was decoded is encoded to the same bytes again. A Notepad with the default codec, given any values that can be pickled and are not None, in any history of calls by any number of clients, gives the answers of a dictionary that was given the same values.", "quantifier": "all pairs of values; all histories of calls", "why_tests_cant": "A statement about all pairs of object graphs; and about all histories.", "anchors": ["dustgoggles/codex/codecs.py:pickle_codec_factory", "dustgoggles/codex/implements.py:Notepad.set", "dustgoggles/codex/implements.py:Notepad.get"]}
{"id": "C139", "title": "How deep a value may be for the pickle codec", "statement": "Encoding a value fails with RecursionError, with struct.error (a size that does not fit its field), or for want of memory, and in no other way. There is no RecursionError if the depth allowed exceeds a bound given by the number of objects and the depth to which tuples are directly in tuples, whatever cycles there are. Lists nested as deep as the depth allowed, or deeper, are a RecursionError.", "quantifier": "all object graphs, all recursion limits", "why_tests_cant": "All graphs and all limits.", "anchors": ["dustgoggles/codex/codecs.py:pickle_codec_factory"]}
{"id": "C140", "title": "dig_and_edit on mappings that are in several places or in themselves", "statement": "dig_and_edit sets each matching entry of each mapping below the one given exactly once, and returns. This is false in general: a mapping that is in several places is edited once for each path that leads to it (so `v + 1` adds 2 where a mapping is shared by two keys), and a mapping that holds itself, at any depth, is a RecursionError. What holds: after any call that returns, each mapping has been edited as many times as there are paths to it, no mapping was made or moved, and no key, order or class changed; it returns whenever no mapping below holds itself; the outcome is that of the tree shown (C09) if no mapping is shared, or if setting what was set changes nothing.", "quantifier": "all heaps of mappings with any sharing and cycles, all filters and setters on plain values, all mtypes, all recursion limits", "why_tests_cant": "Sharing patterns and cycles of any shape; the number of edits is the number of paths, which no test enumerates.", "anchors": ["dustgoggles/structures.py:dig_and_edit"]}
{"id": "C141", "title": "NestingDict.todict on shared and cyclic NestingDicts", "statement": "todict of a NestingDict that shares mappings gives the plain dict its tree shows, and leaves the tree of `self` as C73 says. A NestingDict in several places becomes several separate dicts; it is itself left as it was and is no longer part of `self`. Plain dicts below are changed in place, and nothing else. A NestingDict that holds itself, at any depth, is a RecursionError at every limit.", "quantifier": "all heaps of dicts with any sharing and cycles, all recursion limits", "why_tests_cant": "Object identity in graphs of any shape.", "anchors": ["dustgoggles/structures.py:NestingDict.todict", "dustgoggles/structures.py:dig_and_edit"]}
{"id": "C142", "title": "rmerge does not change its arguments, and shares with them what it does not merge", "statement": "rmerge(map1, map2) changes no mapping there is; its result is a new dict, each mapping in it that merges two is new and in one place only, and the tree shown is the merger of the two trees (C10 to C12), however mappings are shared. It returns if one of the mappings holds none of itself, though the other may; if a pair of mappings comes back to itself when the same keys are followed in both it is a RecursionError. That the result has no mapping in common with map1 or map2 is false: a mapping that is not merged (its key is in one of the two only, or its counterpart is no mapping) is put into the result itself, so a later edit of the result (dig_and_edit, a second setting) changes the argument. It holds if all mappings on either side have a counterpart.", "quantifier": "all heaps of mappings with any sharing and cycles, all mtypes, all recursion limits", "why_tests_cant": "Aliasing between results and arguments of any shape.", "anchors": ["dustgoggles/structures.py:rmerge"]}
{"id": "C143", "title": "How many mergers rmerge makes", "statement": "rmerge merges each pair of nested mappings once. This is false: a key of both mappings comes up once for map1 and once for map2, and each time the nested pair is merged anew, so a pair at level n is merged 2^n times: two mappings with one common key at each of n + 1 levels take 2^(n+1) - 1 calls instead of n + 1. What holds: the number of dicts made is exactly the number of pairs counted that way; it is at least the number of pairs and at most 2^depth times it.", "quantifier": "all heaps of mappings that show finite trees, all mtypes", "why_tests_cant": "A growth rate; tests see single sizes.", "anchors": ["dustgoggles/structures.py:rmerge"]}
{"id": "C144", "title": "MaybePool.map of functions that change their arguments", "statement": "What get() gives for a record is what the function gives for its arguments as the caller has them, whether the pool has no workers (threads=None), workers, or workers with as_chunks. This is false: without workers the calls work on the caller's objects one after another, so a call sees what earlier calls did to a list or dict that several records share; with as_chunks it sees what the earlier records of its chunk did; with plain workers each record is pickled by itself. (Two records with the same list and a function that appends to it and returns its length: 1, 2 without workers; 1, 1 with workers; 1, 2 or 1, 1 with chunks, depending on the number of workers.) What holds, for every codec that brings values back (the pickle codec does, C136): it is so in all modes if the function changes nothing, whatever is shared; and if it changes only lists and dicts it is given, provided no list or dict is shared by two records (strings, bytes and tuples may be). With workers the caller's objects stay as they were; without, they are as the calls leave them, except that strings, bytes and tuples stay.", "quantifier": "all object graphs of arguments with any sharing and cycles, all functions, all numbers of records and workers, all codecs", "why_tests_cant": "Depends on sharing between arguments and on how records fall into chunks.", "anchors": ["dustgoggles/structures.py:MaybePool.map", "dustgoggles/structures.py:MaybePool.apply", "dustgoggles/structures.py:_chunkwrap", "dustgoggles/structures.py:MaybePool.get"]}
{"id": "C145", "title": "Reading a Sticky while others stick and close it", "statement": "Whatever other processes do with Stickies of the same address, read gives None, a value that somebody has stuck, or an exception. This is false: copies into the block and out of it take time, and bytes of two pickles, or of a pickle and zeros, may be a pickle too. (One process sticks (1, 2) and then (3, 4); a reader may get (3, 2). A process sticks (5, 6), once; a reader may get (0, 6).) What holds, for every codec: each byte read is zero or stands in the same place in an encoding of the same length that was there or that some process had begun to stick, and the same is true of what is left in the block; a read gives None when there is no block, or what such bytes decode to, now or at an earlier read of this object, or a value that this object has itself stuck. If copies are not interrupted, the bytes read are zeros or one of those encodings; with the pickle codec read then gives None, raises, or gives a value that was stuck, with the same types, contents, sharing and cycles.", "quantifier": "all codecs, all numbers of processes each choosing its calls from the outcomes of its earlier ones, all schedules, byte by byte; all states of memory at the beginning", "why_tests_cant": "Depends on where copies are interrupted by other processes.", "anchors": ["dustgoggles/codex/implements.py:Sticky.read", "dustgoggles/codex/implements.py:Sticky.stick", "dustgoggles/codex/implements.py:Sticky.close", "dustgoggles/codex/memutilz.py:open_block"]}
{"id": "C146", "title": "Reading keys of a Notepad that others set, values pickled", "statement": "Whatever other processes do with a Notepad, reading a key gives a value that was there or that somebody has set under this key, or raises. This is false with the default codec (pickle) when copies in and out of blocks are taken apart: a process sets (5, 6) and a reader of the same key may get (0, 6), if the writer is interrupted before the 5 and the reader after it has read a zero in its place. It holds if copies are not interrupted: a read raises or gives a value that was there or that some process had begun to set under this key, with the same types, contents, sharing and cycles.", "quantifier": "all numbers of processes with scripts that depend on the outcomes of earlier calls, all keys, all values and object graphs, all schedules", "why_tests_cant": "Depends on where copies are interrupted by other processes.", "anchors": ["dustgoggles/codex/implements.py:Notepad.__getitem__", "dustgoggles/codex/implements.py:Notepad.set", "dustgoggles/codex/codecs.py:generic_mnemonic_factory.memorize", "dustgoggles/codex/codecs.py:generic_mnemonic_factory.remember"]}
{"id": "C147", "title": "What a tracked Composition notes after edits", "statement": "After any edits of a Composition with a tracker, a run that completes adds one record for each step, in order, with its name and its function. This is false: a step replaced with add_step under its name is noted twice in every run, first with the function it replaced; after reindex, steps are noted with the names and functions filed there before, or not at all. What holds: each name has a list of functions filed under it (a step's function is filed under its name when the tracker comes, or when it is added after that; nothing is ever taken away), and a run adds, for each step it completes and in order, one record for each function filed under the name of the step; if it fails, a first part of those of the step it failed at, and then, if execute is used and the error is an Exception, one record of the function that is now at that place, with the exception. So if no step is added under a name that is taken, and the steps are not reindexed, there is exactly one record for each step completed, with its name and function, and at most one for the step that failed.", "quantifier": "all Compositions, all edits (add_step, add_send, add_insert, add_captures, reindex, track) and runs in any order, all signals; for steps and sends that do not themselves write to the log", "why_tests_cant": "Depends on the history of edits.", "anchors": ["dustgoggles/composition.py:Composition.track", "dustgoggles/composition.py:Composition._add_track_sends", "dustgoggles/composition.py:Composition._add_track_send", "dustgoggles/composition.py:Composition.add_step", "dustgoggles/composition.py:Composition.reindex", "dustgoggles/composition.py:Composition.itercall", "dustgoggles/composition.py:Composition.execute"]}
{"id": "C148", "title": "Editing a Composition while it is iterated over", "statement": "Whatever is done to a Composition between the outputs of itercall, each next runs the next of the steps that were there at the beginning, as it is when it is reached. This is false: after add_step under a new name the following next raises RuntimeError, even if no step is left; after reindex the iteration goes on with the old names, and next raises KeyError, or runs a step again and leaves another out. What holds: the names are those at the first next; unless a step is added under a new name before the steps are reindexed, next runs the step that has the name now, with the inserts and sends it has now, on the last output, or raises KeyError if there is none; it ends when there is no further name; after that, or after it has raised, it only ends. So the claim holds if no step is added under a new name and the steps are not reindexed: steps may be replaced, sends, inserts, captures and a tracker added, and the Composition run and iterated over by others.", "quantifier": "all Compositions, all orders of edits, runs and calls of next on any number of iterations", "why_tests_cant": "Depends on the order of edits and outputs.", "anchors": ["dustgoggles/composition.py:Composition.itercall", "dustgoggles/composition.py:Composition.call_step", "dustgoggles/composition.py:Composition.add_step", "dustgoggles/composition.py:Composition.reindex"]}
{"id": "C149", "title": "Several iterations over one Composition", "statement": "Several iterations over one Composition, and runs of it in between, each give the outputs that they would give alone, if the results of the steps depend on their arguments only. This is false if there are sends to steps: what one iteration sends to a step is used by another. It holds if no send goes to a step and none fails.", "quantifier": "all Compositions, all numbers of iterations, all orders of next and execute", "why_tests_cant": "Depends on the order in which iterations go on.", "anchors": ["dustgoggles/composition.py:Composition.itercall", "dustgoggles/composition.py:Composition.execute", "dustgoggles/composition.py:Composition.place_into"]}
{"id": "C150", "title": "Claiming keys of a shared Notepad", "statement": "Processes may share out work by claiming keys: set(key, value, exists_ok=False) claims, del gives up. Of all processes that claim a free key at once exactly one succeeds and the others get KeyError; more generally all claims are as if made one after the other, a claim being refused only when the key is taken; a process finds under the keys it has what it has put there, whatever the others do, replacing its values and giving up its keys succeed; a key that nobody has has no value and is not listed, and the keys that are taken are listed. This is false: when two processes are in the doorway of the lock at once, both may be told that they have the key (and with no_lockout=True whenever they overlap). It holds when no process makes a marker or lock block, or uses the count block, while another is about to make its marker or lock block.", "quantifier": "all numbers of processes with scripts that depend on the outcomes of earlier calls and play by the rules (replace and delete only what they have claimed), all keys and values that can be encoded, all schedules without a disturbed doorway, stopping any process anywhere", "why_tests_cant": "Depends on how the processes are interleaved.", "anchors": ["dustgoggles/codex/implements.py:Notepad.set", "dustgoggles/codex/implements.py:Notepad.__delitem__", "dustgoggles/codex/implements.py:Notepad.__getitem__", "dustgoggles/codex/implements.py:TagIndex._add", "dustgoggles/codex/implements.py:TagIndex._delitem", "dustgoggles/codex/implements.py:SlidingLock.acquire", "dustgoggles/codex/codecs.py:generic_mnemonic_factory.memorize"]}
{"id": "C151", "title": "A key of a shared Notepad as a mutex", "statement": "Processes that share a Notepad may use a key as a mutex for other keys: set(lock, token, exists_ok=False) takes it, del gives it up, and only the process that has it gets and sets the keys it guards. Then all claims and all uses of the guarded keys are as if made one after the other: a process that gets the lock sees the guarded values as the previous holder left them, reads back what it has set meanwhile, and when it gives up the lock the next one sees that; a guarded value is never half-written or gone. In particular, if processes each take the lock, read a counter, set the next value and give up the lock, then when all have returned the counter has been increased exactly once for each process that got the lock. This is false when two processes are in the doorway of the lock at once: both may hold the mutex, and an update is lost. It holds when no process makes a marker or lock block, or uses the count block, while another is about to make its marker or lock block.", "quantifier": "all numbers of processes with scripts that depend on the outcomes of earlier calls and play by the rules (touch only what they hold or what it guards), all assignments of guards to keys, all keys and values that can be encoded, all schedules without a disturbed doorway, stopping any process anywhere", "why_tests_cant": "Depends on how the processes are interleaved; a lost update shows only in rare schedules.", "anchors": ["dustgoggles/codex/implements.py:Notepad.set", "dustgoggles/codex/implements.py:Notepad.__delitem__", "dustgoggles/codex/implements.py:Notepad.__getitem__", "dustgoggles/codex/implements.py:TagIndex._add", "dustgoggles/codex/implements.py:TagIndex._delitem", "dustgoggles/codex/implements.py:SlidingLock.acquire", "dustgoggles/codex/codecs.py:generic_mnemonic_factory.memorize", "dustgoggles/codex/codecs.py:generic_mnemonic_factory.remember"]}
{"id": "C152", "title": "Processes that share a GridPaper", "statement": "Processes that share a GridPaper, each setting only keys of its own (and reading any), do not disturb each other: whatever the others do meanwhile, a process that reads its own keys, or keys that nobody sets, gets the answers of a dictionary of arrays that it has for itself: gp[key] is the array last stored there (shape, type and bytes), an array too big for the block its key was first given raises TypeError and changes nothing, absent keys raise KeyError. When all have returned, every key can be read by everybody and has the array that its owner left there, and keys() lists exactly these keys, each once. This is false when two processes are in the doorway of the lock at once: both list their key in the same place of the index, and a process that sets \"b\" and reads \"b\" may get the array another process has set at \"a\". It holds when no process makes a marker or lock block, or uses the count block, while another is about to make its marker or lock block. Keys of others are not included: an array read while its owner sets it may have the old shape and the new bytes.", "quantifier": "all GridPapers in use, all divisions of any keys among any number of processes, all scripts whose calls depend on the outcomes of earlier ones, all arrays that survive the metadata codec, all schedules without a disturbed doorway, stopping any process anywhere", "why_tests_cant": "Depends on how the processes are interleaved; the wrong array shows only in rare schedules.", "anchors": ["dustgoggles/codex/implements.py:GridPaper.__setitem__", "dustgoggles/codex/implements.py:GridPaper.__getitem__", "dustgoggles/codex/implements.py:MetaTagIndex.add", "dustgoggles/codex/implements.py:MetaTagIndex.__getitem__", "dustgoggles/codex/implements.py:TagIndex._add", "dustgoggles/codex/implements.py:SlidingLock.acquire", "dustgoggles/codex/codecs.py:numpy_mnemonic_factory.memorize_array", "dustgoggles/codex/codecs.py:numpy_mnemonic_factory.remember_array"]}
{"id": "C153", "title": "Listing a TagIndex while other processes add keys", "statement": "update() reads the index without the lock. As long as the processes only add keys, a process that lists the index while the others add to it sees a list that only grows: it begins with the keys that were there, from the moment add() returns a position the key is in every later listing at that position, a key never changes place or vanishes, and what two processes have seen never disagrees: one is the beginning of the other, and both are the beginning of what is listed when all have returned, in which no key is twice. A listing made during an add may end with one entry that is no key: as many NUL characters as the key being added has bytes. The claim that a listing has nothing but keys and all keys that nobody removes is false: besides that entry, when another process removes a key, the last key is moved to its place, and a listing that has passed this place and has not yet reached the end lacks a key that was in the index all the time.", "quantifier": "all indices in use, any number of processes, all scripts of add and update whose calls depend on the outcomes of earlier ones, all schedules without a disturbed doorway, stopping any process anywhere", "why_tests_cant": "Depends on the step of another process' add or remove at which the listing passes; hardly ever hit by a test.", "anchors": ["dustgoggles/codex/implements.py:TagIndex.update", "dustgoggles/codex/implements.py:TagIndex._enumerate_keys", "dustgoggles/codex/implements.py:TagIndex._add", "dustgoggles/codex/implements.py:TagIndex.add", "dustgoggles/codex/implements.py:TagIndex._delitem", "dustgoggles/codex/implements.py:SlidingLock.acquire"]}
{"id": "C154", "title": "dig functions and exceptions of the predicate", "statement": "The dig functions ask the predicate about the pairs of a nested mapping level by level, a level before its sublevels. `dig_for_values`, `dig_for_keys` and `dig_for_items` raise the first exception the predicate raises, whatever its class, and otherwise give all hits in that order. `dig_for_value`, `dig_for_key` and `dig_for_item` should do the same up to the first level with hits: raise what the predicate raises before or in it, give the hits of that level, and None only if there are no hits. That is false for `StopIteration` (what `next` raises on an empty iterator): `dig_for` catches it around the recursive call, so that, raised below the top level, it is never seen by the caller; it ends the search of the mapping around, whose other values are skipped, and None may be returned though there is a hit. For all other exceptions it holds.", "quantifier": "all nested mappings, all predicates, all mapping classes searched, every place at which the predicate raises", "why_tests_cant": "The exception that is swallowed depends on its class, on the depth at which it is raised and on what comes after it; tests use predicates that do not raise.", "anchors": ["dustgoggles/structures.py:dig_for", "dustgoggles/structures.py:dig_for_all", "dustgoggles/structures.py:dig_for_value", "dustgoggles/structures.py:dig_for_key", "dustgoggles/structures.py:dig_for_item"]}
{"id": "C155", "title": "dig_and_edit with functions that raise", "statement": "When the filter or the setter of `dig_and_edit` raises, one would hope that the mapping is unchanged, or at least that the caller learns of the exception. Both are false: the setter's exception leaves earlier edits in place, and a `StopIteration` of the filter is swallowed by `tuple(filter(...))`: the pair and all pairs after it in the same mapping silently keep their values. What holds: no key is added, removed or moved; each value is afterwards the old one or the setter's output for it, possibly with parts of it edited; what is raised was raised by the setter or by the filter; an exception of the filter at the top level (not StopIteration) leaves everything unchanged; and if nothing is raised and the filter raises no StopIteration, every matching pair at every level has been edited.", "quantifier": "all nested mappings with distinct keys, all filters and setters, all exceptions, every place at which they are raised", "why_tests_cant": "Where the edit stops depends on the place of the exception in the traversal; tests use functions that do not raise.", "anchors": ["dustgoggles/structures.py:dig_and_edit"]}
{"id": "C156", "title": "creating a block is not one step", "statement": "Creating shared memory takes two system calls (the name is bound, then the block gets its size). One would hope that no caller of `open_block`, `fetch_block_bytes`, `Notepad.get` and so on can tell: that processes end, and leave the memory, as they can when creation is a single step. That is false: of two processes that call `open_block` on the same new address, one may raise `ValueError`, and so may `Notepad.get` with a default while another process sets the key for the first time. If a process is killed between the two calls, `exists_block` says True for the address, and `open_block` with any options, `fetch_block_bytes`, `delete_block` and a `SlidingLock` with that count block raise `ValueError` and change nothing. What holds: in every run in which no opening process finds a block still empty (or goes on in the same way, as `exists_block` does), every process is where it would be if each operation were done as a whole when it begins, and the memory is the same but for what is still being created.", "quantifier": "any number of processes with any programs that use only blocks they were given, created or opened; all schedules, with switches between the two system calls; all addresses and sizes", "why_tests_cant": "The window is two adjacent system calls inside SharedMemory.__init__; a test cannot put another process, or a kill, between them, nor cover all interleavings.", "anchors": ["dustgoggles/codex/memutilz.py:open_block", "dustgoggles/codex/memutilz.py:exists_block", "dustgoggles/codex/memutilz.py:fetch_block_bytes", "dustgoggles/codex/memutilz.py:delete_block", "dustgoggles/codex/implements.py:Notepad.get"]}
{"id": "C157", "title": "calls on a TagIndex when creating a block is not one step", "statement": "Processes that share a `TagIndex` with the default lock and add and remove keys, each choosing its calls from the outcomes of its earlier ones, are run with switches also between the two system calls by which a block is created or opened. As long as no process makes a marker or lock block or uses the count block while another is about to make its marker or lock block, all outcomes should be those of some sequence of the same calls, one after the other, that respects each process's own order and real time, and the listing after the last return should be what that sequence leaves. That is false for an index whose lock has not been used yet: of two processes that add a key each, one may get a `ValueError` from `add`, because the other is just making the lock's count block. If the count block is there, and no block is half made at the start, it holds: no process ever finds a block empty, except in `exists_block`, where it makes no difference.", "quantifier": "any number of processes, all scripts of adds and removes, all interleavings of the system calls that disturb no doorway, all indexes and keys that the digest separates", "why_tests_cant": "The window is between two system calls inside one constructor; the claim is about all interleavings of all scripts.", "anchors": ["dustgoggles/codex/implements.py:TagIndex.add", "dustgoggles/codex/implements.py:TagIndex._add", "dustgoggles/codex/implements.py:TagIndex._delitem", "dustgoggles/codex/implements.py:SlidingLock.acquire", "dustgoggles/codex/implements.py:SlidingLock.__enter__", "dustgoggles/codex/memutilz.py:open_block", "dustgoggles/codex/memutilz.py:exists_block"]}
{"id": "C158", "title": "the blocks that np.get gives with fetch=False", "statement": "`np.get(key, fetch=False)` gives the block of the value last set under the key: its bytes are that value's encoding. The block is a snapshot: whatever calls any clients make afterwards, the same key set again, deleted, everything closed and made anew, its bytes stay the same. As long as the key keeps the block (it has not been set again, deleted, or everything cleared or closed), writing another encoding of the same length into the block is setting the key: all later answers to all clients are those of a dictionary with the new value. An encoding of another length raises `ValueError` and changes nothing. Once the key has lost the block, writing into it changes nothing that can be found under any name. For a key that is not there, `np.get` with `fetch=False` raises `FileNotFoundError` whatever the default is, and changes nothing.", "quantifier": "all histories of calls by any clients before, in between and after, all keys that the digest separates, all values and all bytes written", "why_tests_cant": "The claim is about all calls that may come between fetching the block and using it, and about all answers after a write that bypasses the notepad.", "anchors": ["dustgoggles/codex/implements.py:Notepad.__getitem__", "dustgoggles/codex/implements.py:Notepad.get", "dustgoggles/codex/implements.py:Notepad.__setitem__", "dustgoggles/codex/codecs.py:generic_mnemonic_factory", "dustgoggles/codex/memutilz.py:delete_block"]}
{"id": "C159", "title": "the blocks that gp.get gives with fetch=False", "statement": "`gp.get(key, fetch=False)` should give the block that holds the array stored under the key. It never does: for every key that is there it raises `TypeError`, whatever the default, because `remember_array` returns the block alone where `__getitem__` takes two results apart. For a key that is not there it gives the default, and `__getitem__` raises `KeyError`. In no case does anything change.", "quantifier": "all histories of calls by any clients, all keys that the digest separates, all arrays", "why_tests_cant": "A test shows one key; the claim is that no state of the GridPaper makes the parameter work.", "anchors": ["dustgoggles/codex/implements.py:GridPaper.__getitem__", "dustgoggles/codex/implements.py:GridPaper.get", "dustgoggles/codex/codecs.py:numpy_mnemonic_factory"]}
{"id": "C160", "title": "notepads without an index (FakeIndex)", "statement": "A `Notepad` made with `index_type=FakeIndex` is a dictionary whose keys can't be listed. If no block of the prefix exists to begin with, then however many such objects are opened (with `create` or without, which makes no difference) and whatever is called on them, one call after the other: `set` stores, with `exists_ok=False` it raises `KeyError` exactly when the key is there; reading gives the value last set; a missing key raises `FileNotFoundError`, default or not; deleting removes the key, or raises `KeyError` if it is not there; string keys that begin with \"index\" can't be set. `keys()` is `None`, `clear()` raises `TypeError`, `close()` returns and leaves every value in shared memory, where objects opened later find it. In the end the blocks of the prefix are exactly those of the keys in the dictionary, and no other shared memory has been touched. Nothing depends on digests of keys.", "quantifier": "all histories of calls on any number of such objects of a prefix, all keys with names that the system accepts, all values that survive their encoding", "why_tests_cant": "Every test has finitely many calls and keys; the claim is about all histories and says that no other block is touched.", "anchors": ["dustgoggles/codex/implements.py:FakeIndex.__init__", "dustgoggles/codex/implements.py:FakeIndex.update", "dustgoggles/codex/implements.py:FakeIndex.add", "dustgoggles/codex/implements.py:FakeIndex.__delitem__", "dustgoggles/codex/implements.py:FakeIndex.remove", "dustgoggles/codex/implements.py:Notepad.__setitem__", "dustgoggles/codex/implements.py:Notepad.__getitem__", "dustgoggles/codex/implements.py:Notepad.__delitem__", "dustgoggles/codex/implements.py:Notepad.close", "dustgoggles/codex/implements.py:Notepad.clear", "dustgoggles/codex/codecs.py:generic_mnemonic_factory"]}
{"id": "C161", "title": "processes sharing a notepad without an index", "statement": "Processes that share a prefix through `Notepad`s with `index_type=FakeIndex` should be able to claim an absent key with `set(key, value, exists_ok=False)`: of all who try, at most one is not refused. This is false: `memorize` looks whether the block exists and then makes it with leave to overwrite, so two processes that look first both succeed and the second silently destroys the value of the first. What holds: a process whose keys no other process names gets for each of its calls exactly a dictionary's answer and in the end the blocks of its keys are exactly the dictionary's, whatever the others call on their keys, however all are interleaved or stopped, and without any lock.", "quantifier": "all numbers of processes, all scripts of calls (that may depend on earlier answers), all interleavings of memory operations", "why_tests_cant": "Interleavings can't be chosen by a test.", "anchors": ["dustgoggles/codex/implements.py:FakeIndex.add", "dustgoggles/codex/implements.py:FakeIndex.__delitem__", "dustgoggles/codex/implements.py:Notepad.__setitem__", "dustgoggles/codex/implements.py:Notepad.__getitem__", "dustgoggles/codex/implements.py:Notepad.__delitem__", "dustgoggles/codex/codecs.py:generic_mnemonic_factory", "dustgoggles/codex/memutilz.py:open_block", "dustgoggles/codex/memutilz.py:exists_block"]}
{"id": "C162", "title": "notepads with metadata (MetaTagIndex)", "statement": "A new `Notepad` made with `index_type=MetaTagIndex` (and `no_lockout=True`, since removals with the default lock never return, C54) is an ordered dictionary whose keys may have metadata: `np.set(key, value, meta)` sets the value, appends a new key to the list, and attaches `meta` if it is not `None`; `np.index[key]` gives the metadata as written (`FileNotFoundError` for a key without, `KeyError` for a key that is not there); setting a key again without `meta` keeps its old metadata; `exists_ok=False` on a listed key raises `KeyError` and changes neither value nor metadata; a removed key is gone with its value, the last key taking its place in the list with its own metadata, but the removal is reported as a `KeyError` when neither the key nor the last key has metadata. No other shared memory is touched.", "quantifier": "all histories of calls by clients of one notepad, all keys that the digest separates, all values and metadata that survive their codecs", "why_tests_cant": "The claim is about all histories, and which blocks they leave alone.", "anchors": ["dustgoggles/codex/implements.py:MetaTagIndex.__init__", "dustgoggles/codex/implements.py:MetaTagIndex.add", "dustgoggles/codex/implements.py:MetaTagIndex.__getitem__", "dustgoggles/codex/implements.py:MetaTagIndex.__delitem__", "dustgoggles/codex/implements.py:MetaTagIndex.items", "dustgoggles/codex/implements.py:Notepad.__setitem__", "dustgoggles/codex/implements.py:Notepad.set", "dustgoggles/codex/implements.py:Notepad.__delitem__", "dustgoggles/codex/implements.py:Notepad.clear", "dustgoggles/codex/codecs.py:json_codec_factory"]}
{"id": "C163", "title": "closing notepads with metadata", "statement": "`np.close()` of a notepad made with `index_type=MetaTagIndex` and `no_lockout=True` returns and leaves none of its blocks. This is false: when neither the first key nor the last has metadata, `close` raises `KeyError` after removing the first key only; the other values stay in shared memory, and creating the notepad again raises `FileExistsError`. When every key has metadata, `close` returns, leaves none of the notepad's blocks and touches no other.", "quantifier": "all histories of calls before `close`", "why_tests_cant": "What close leaves behind depends on the whole history; tests with metadata for every key never show the failure.", "anchors": ["dustgoggles/codex/implements.py:Notepad.close", "dustgoggles/codex/implements.py:Notepad.__delitem__", "dustgoggles/codex/implements.py:MetaTagIndex.__delitem__", "dustgoggles/codex/implements.py:TagIndex.close", "dustgoggles/codex/memutilz.py:delete_block"]}
{"id": "C164", "title": "decorated functions as steps of a Composition", "statement": "Giving a Composition a callable decorated with `triggerize`, `splat`, `argstop` or `optionalize` (in any combination) as a step is giving it a function that calls the decorated callable: `triggerize(g)` calls `g()` and hands on the signal (called by hand without an argument, it gives `None`), `splat(f)` calls `f` with the elements of the signal, `argstop(f, k)` with its first `k` elements, and a pipeline of `optionalize`d steps without sends never raises an ordinary exception. This is false for a `Dynamic` that is loaded when it is decorated: the decorators copy its attribute `func` (`functools.wraps` copies `__dict__`), and the Composition calls that attribute and passes over the decorators. It holds for functions, partials, Compositions and Dynamics that have never been loaded.", "quantifier": "all callables, combinations of decorators, pipelines, signals, inserts and states of the Dynamic at the time of decoration and of the run", "why_tests_cant": "Tests decorate plain functions; that a decorator is passed over depends on what is decorated and when.", "anchors": ["dustgoggles/func.py:triggerize", "dustgoggles/func.py:splat", "dustgoggles/func.py:argstop", "dustgoggles/func.py:optionalize", "dustgoggles/composition.py:Composition.call_step", "dustgoggles/composition.py:Composition._call_partial_step", "dustgoggles/dynamic.py:Dynamic.define", "dustgoggles/dynamic.py:Dynamic.from_function", "dustgoggles/func.py:zero"]}
{"id": "C165", "title": "functions that pass their arguments on", "statement": "`pass_parameters(f, *args, **kwargs)` is `f(*args, **kwargs)`. This is false if `f` has a parameter `func` that is given by name (`TypeError`); it holds for all other arguments. `catch_interaction(noninteractive, f, *args, **kwargs)` with none of its own parameter names among the keywords is `f(*args, **kwargs)` if `noninteractive` is false and otherwise gives `\"\"` without calling `f`; `_default` replaces `\"\"` and is not passed on. `constant(x)` and `zero` as steps of a Composition give `x` and `None` whatever the signal and the inserts are.", "quantifier": "all functions, positional and keyword arguments, worlds", "why_tests_cant": "All names of keywords, and functions with any effect.", "anchors": ["dustgoggles/func.py:pass_parameters", "dustgoggles/func.py:catch_interaction", "dustgoggles/func.py:constant", "dustgoggles/func.py:zero"]}
{"id": "C166", "title": "notepads used with and without an index", "statement": "Clients of a prefix with an index and clients made with `index_type=FakeIndex` see one dictionary: which of the clients have an index makes no difference to any answer. This is false: what is set without an index is not listed (and `del` of it by a client with one removes it and raises `KeyError`; `set` with `exists_ok=False` is refused but lists it), and a listed key removed without an index stays listed until it is set again: `keys` gives it, `items` raises `FileNotFoundError`, `clear` and `del` raise `KeyError`. It holds when the clients without an index remove nothing and set only what is listed. Values are shared in all cases: a `set` that returns is seen by every `get`, and one that raises changes no value.", "quantifier": "all histories of calls that do not overlap, values there before the index, keys, locks and codecs", "why_tests_cant": "The answers depend on the whole history of both kinds of clients.", "anchors": ["dustgoggles/codex/implements.py:Notepad.__setitem__", "dustgoggles/codex/implements.py:Notepad.__delitem__", "dustgoggles/codex/implements.py:Notepad.clear", "dustgoggles/codex/implements.py:FakeIndex.__delitem__", "dustgoggles/codex/implements.py:TagIndex._add"]}
{"id": "C167", "title": "closing a notepad used with and without an index", "statement": "`close` by a client with an index returns and leaves no block of the prefix, also if clients without an index have used it. This is false: values that are not listed stay, and if a listed key has been removed without an index, `close` raises `KeyError`, the index stays, and the prefix cannot be created anew. When everything listed has a value, `close` returns, and the index and all that is listed are gone, and exactly the values that are not listed stay.", "quantifier": "all histories of calls that do not overlap, values there before the index, keys, locks and codecs", "why_tests_cant": "What is left depends on the whole history of both kinds of clients.", "anchors": ["dustgoggles/codex/implements.py:Notepad.close", "dustgoggles/codex/implements.py:Notepad.__delitem__", "dustgoggles/codex/implements.py:FakeIndex.__delitem__", "dustgoggles/codex/implements.py:TagIndex.close"]}
{"id": "C168", "title": "the life of a MaybePool", "statement": "A MaybePool gives the same answers to any sequence of `map`, `close`, `join`, `terminate` and `get` whether it runs in-process or in a pool (functions that return values, one setting of `as_chunks`). This is false: in a pool `map` after `close` or `terminate` raises `ValueError`, as does `join` before, and a chunked `map` that is refused spoils the results that were there. It holds, for pools of any size, if `map` does not come after `close` or `terminate` and `join` not before: every `get` then gives the results of the last `map`, and none after `terminate`.", "quantifier": "all sequences of calls, functions, records, keys and numbers of workers", "why_tests_cant": "All orders of calls; in-process runs, which tests use, accept every order.", "anchors": ["dustgoggles/structures.py:MaybePool.map", "dustgoggles/structures.py:MaybePool.apply", "dustgoggles/structures.py:MaybePool.close", "dustgoggles/structures.py:MaybePool.join", "dustgoggles/structures.py:MaybePool.terminate", "dustgoggles/structures.py:MaybePool.get"]}
{"id": "C169", "title": "sends and inserts for names that are not steps", "statement": "Sends from, and inserts at, names that are not names of steps do nothing unless a step gets that name: in any sequence of edits and runs of a Composition, leaving out those for names that no step ever has changes neither what the runs return or raise nor the state of the world.", "quantifier": "all Compositions, sequences of edits and runs, and sets of names", "why_tests_cant": "The documentation says so of all sequences of calls; a test tries a few.", "anchors": ["dustgoggles/composition.py:Composition.add_send", "dustgoggles/composition.py:Composition.add_insert", "dustgoggles/composition.py:Composition._perform_sends", "dustgoggles/composition.py:Composition.call_step"]}
{"id": "C170", "title": "wiring a step before it is there", "statement": "It does not matter whether the sends and inserts of a step are added before the step or after it: later runs give the same. This is false for a Composition with a tracker: a send that was added before the step comes before the tracker's record, and if it raises, the step is not recorded. It holds without a tracker, and for inserts always.", "quantifier": "all Compositions, steps, lists of sends and inserts, and later edits and runs", "why_tests_cant": "All later uses of a Composition.", "anchors": ["dustgoggles/composition.py:Composition.add_step", "dustgoggles/composition.py:Composition.add_send", "dustgoggles/composition.py:Composition.add_insert", "dustgoggles/composition.py:Composition._add_track_send"]}
{"id": "C171", "title": "the views of a Composition", "statement": "`index` lists the names of the steps in the order in which they were first added since the last `reindex`, without repetition, after any edits and runs; `function_names` gives the name of each step. The latter is false: it raises `AttributeError` if a step has no `__name__`, as `functools.partial` objects have none; it holds if all have one.", "quantifier": "all Compositions, sequences of edits and runs", "why_tests_cant": "All sequences of edits; a test with plain functions does not show the failure.", "anchors": ["dustgoggles/composition.py:Composition.index", "dustgoggles/composition.py:Composition.function_names", "dustgoggles/composition.py:Composition._check_for_step", "dustgoggles/composition.py:Composition.add_step", "dustgoggles/composition.py:Composition.reindex"]}
{"id": "C172", "title": "steps that edit the Composition they are in", "statement": "If no step raises, steps may add and replace steps (that do not raise either), add inserts and reindex while their own Composition runs, and the run completes. This is false: if any step, even the last, adds a step under a new name, the run raises `RuntimeError`, and a tracker notes the failure of a step that was not called. It holds, with one output for each step, if steps are only replaced and nothing is reindexed; each step is then called as it is when it is reached, with the inserts and sends it has by then. A step that reindexes (having added none before in the same call) makes the run raise `KeyError` if the next name is not among the new ones; the last step may reindex and then add steps, and the run completes. A failure is noted by the tracker there is by then, also if a step turned tracking on.", "quantifier": "all Compositions, all functions from steps and states to lists of edits, all signals", "why_tests_cant": "All ways in which steps may edit their Composition.", "anchors": ["dustgoggles/composition.py:Composition.itercall", "dustgoggles/composition.py:Composition.execute", "dustgoggles/composition.py:Composition._do_step", "dustgoggles/composition.py:Composition.add_step"]}
{"id": "C173", "title": "nobody waits for ever for a SlidingLock", "statement": "In every endless run of finitely many processes in which a process that is using a `SlidingLock` (without `max_spins`) is always given another turn, every process that asks for the lock acquires it. This is false: a process that looks for a slot may find each slot it tries taken, while another process goes out and in again between any two of its turns. It holds for a process that has a slot (has made its marker), and at any time at which some process asks for the lock, some process acquires it later. Fair or not, critical sections with slots below a given slot end only a bounded number of times.", "quantifier": "all finite sets of processes, all endless schedules, all first counts", "why_tests_cant": "All endless interleavings.", "anchors": ["dustgoggles/codex/implements.py:SlidingLock._renumber", "dustgoggles/codex/implements.py:SlidingLock.acquire", "dustgoggles/codex/implements.py:SlidingLock._check_acquirement", "dustgoggles/codex/implements.py:SlidingLock.release"]}
{"id": "C174", "title": "how often a SlidingLock can be used", "statement": "`with SlidingLock(name): body`, used by one process after another, gives what the body returns or raises, every time. This is false: use number 2^40 runs the body and then raises `OverflowError`, and the lock is not let go. Up to 2^40 - 1 uses it holds, and each leaves the lock free. After the `OverflowError` every use waits for ever (with `max_spins` it raises `TimeoutError`); a `TagIndex` add that meets it has added its key, and the index takes no further add or remove.", "quantifier": "all numbers of uses, all results of the bodies, all bodies that leave the lock's blocks alone", "why_tests_cant": "2^40 uses.", "anchors": ["dustgoggles/codex/implements.py:SlidingLock.release", "dustgoggles/codex/implements.py:SlidingLock._renumber", "dustgoggles/codex/implements.py:SlidingLock.__exit__", "dustgoggles/codex/implements.py:TagIndex.add"]}
{"id": "C175", "title": "SlidingLock objects, and closing them", "statement": "`SlidingLock` objects of one name may be made, entered, left and closed in any order (each closed when it is not entered, and not used again); no two are entered at the same time. This is false: after `close`, objects made before keep the old count block and objects made later get a new one, and two such objects can both be entered; the same if an object is closed while another is entered. It holds if `close` is called only when no object is entered, and no object made before is used after it; then no call raises, and every call returns if no object is entered while another is. Made, used and closed, a lock leaves nothing in memory. Closing an object while it is entered removes every block of the lock; it may be closed again, but raises `FileNotFoundError` when it is left.", "quantifier": "all sequences of calls on any number of objects", "why_tests_cant": "All orders of calls.", "anchors": ["dustgoggles/codex/implements.py:SlidingLock.close", "dustgoggles/codex/implements.py:SlidingLock.__init__", "dustgoggles/codex/implements.py:SlidingLock.__enter__", "dustgoggles/codex/implements.py:SlidingLock.release"]}
{"id": "C176", "title": "Captures of a Composition that is edited", "statement": "However a Composition is edited after `add_captures` (no step being added or replaced), after a run that raises nothing each capture holds the output of the step it was added for. This is false: `reindex` renames steps, and a capture whose name no step has any more keeps what it had; if steps had each other's numbers, the capture of one comes to hold the output of the other. Captures go by name: after any edits and runs, the capture of a name that a step has holds that step's output in the last run, if the run got past it, and is as before if the run ended before it; a capture of a name that no step has is left as it is; steps added later under new names have no capture. So it holds without `reindex`, also for steps that are replaced.", "quantifier": "all Compositions, all sequences of edits and runs that leave the new lists alone, all signals", "why_tests_cant": "All sequences of edits.", "anchors": ["dustgoggles/composition.py:Composition.add_captures", "dustgoggles/composition.py:Composition.add_capture", "dustgoggles/composition.py:Composition.reindex", "dustgoggles/composition.py:Composition.add_step"]}
{"id": "C177", "title": "Keyword arguments of execute", "statement": "`Composition.execute` takes any keyword arguments and does the same with and without them. A subclass may bind them to steps (`_bind_special_runtime_kwargs`); for one that does so with `add_insert`, the arguments concern only the run they are given to. This is false: they stay bound, and a later run without them does what it would do with them. It holds if the same arguments are given to each run: then each run is as if it were the first. If the binding raises, no step is called, but the first step is noted by the tracker as the one that failed (and with `optional=True` the exception is swallowed).", "quantifier": "all Compositions, all tables of bindings without double slots, all arguments, all signals; sends to steps excluded for the claims about two runs", "why_tests_cant": "All subclasses of this kind.", "anchors": ["dustgoggles/composition.py:Composition._bind_special_runtime_kwargs", "dustgoggles/composition.py:Composition.execute", "dustgoggles/composition.py:Composition.itercall", "dustgoggles/composition.py:Composition.add_insert"]}
{"id": "C178", "title": "are_in with iterators", "statement": "`are_in` takes any iterable and its function any container. For an iterator as container it decides what it decides for a collection of the same elements. This is false: `are_in(items)` decides whether the items come in the iterator in this order, and `are_in(items, or_)` whether the first item is in it. `True` is never wrong, and with one item the answer is right. The iterator is left behind the first place where all items have been met in order, or empty. A function made with an iterator of items serves one call; later calls raise `TypeError`.", "quantifier": "all items, all iterators that end, all numbers of calls; equality taken to be that of Python for values where it is an equivalence", "why_tests_cant": "All iterators.", "anchors": ["dustgoggles/func.py:are_in"]}
