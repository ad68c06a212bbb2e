{"id": "C01", "title": "Candidate list holds exactly the best L candidates", "statement": "Feeding any sequence of candidates (id, distance) into an empty search candidate list of fixed capacity L leaves it holding, in non-decreasing distance order, exactly the L candidates with the smallest distances among all those fed (all of them if fewer than L); candidates whose distance is NaN are ignored; among equal distances the most recently fed candidate wins.", "quantifier": "every capacity L >= 1, every finite sequence of (id, distance) pairs, including ties, duplicates and NaN", "why_tests_cant": "Unit tests feed a handful of short sequences; the claim is about every insertion order and every tie pattern.", "anchors": ["diskann/src/neighbor/queue.rs::NeighborPriorityQueue::insert", "diskann/src/neighbor/queue.rs::get_lower_bound"]}
{"id": "C02", "title": "Best unexpanded candidate is always offered, and offered once", "statement": "After any history of inserts, removals, expansions, truncations and reconfigurations, asking for the next candidate returns the closest candidate that has not been expanded yet (within the active search window), reports none only if every candidate in the window has been expanded, marks it expanded, and never changes which candidates are stored.", "quantifier": "every finite history of insert / remove / pop-closest-unexpanded / truncate / retain / drain / reconfigure / clear operations", "why_tests_cant": "The cursor that makes this fast is only correct because of an invariant over all histories; tests exercise a few interleavings.", "anchors": ["diskann/src/neighbor/queue.rs::closest_notvisited", "diskann/src/neighbor/queue.rs::has_notvisited_node", "diskann/src/neighbor/queue.rs::insert", "diskann/src/neighbor/queue.rs::reconfigure", "diskann/src/neighbor/queue.rs::remove"]}
{"id": "C03", "title": "Removing a candidate removes that candidate", "statement": "Removing a stored (id, distance) candidate from the candidate list removes that entry and only that entry.", "quantifier": "every sorted candidate list and every stored entry, including lists with equal distances", "why_tests_cant": "Depends on tie patterns between distances; tests use distinct distances.", "anchors": ["diskann/src/neighbor/queue.rs::remove", "diskann/src/neighbor/diverse_priority_queue.rs::DiverseNeighborQueue"]}
{"id": "C04", "title": "Pages are disjoint, ordered prefixes", "statement": "Draining the best c candidates from the list returns the page of the c smallest distances, keeps exactly the remaining candidates in order, and every candidate of a later page drained without further inserts is at least as far as every candidate of an earlier page.", "quantifier": "every list content, every sequence of page sizes", "why_tests_cant": "Quantifies over all contents and page-size sequences.", "anchors": ["diskann/src/neighbor/queue.rs::drain_best", "diskann/src/graph/search/paged.rs"]}
{"id": "C05", "title": "Adjacency lists never contain duplicates", "statement": "Starting from an empty adjacency list, after any sequence of push, bulk-extend, retain, truncate, clear and construction from an arbitrary id stream, no id occurs twice; push reports true exactly when the id was new; bulk-extend reports exactly how many ids were appended and keeps the old entries as a prefix.", "quantifier": "every history of public list operations over arbitrary ids", "why_tests_cant": "Invariant over all histories.", "anchors": ["diskann/src/graph/adjacencylist.rs::AdjacencyList"]}
{"id": "C06", "title": "Bounded back-edge buffer behaves like a set-append", "statement": "The back-edge accumulator used by batched insertion yields, for every sequence of pushed ids, exactly the distinct ids in first-seen order, independent of whether it is in its inline or spilled representation, and reports newness exactly.", "quantifier": "every finite sequence of pushes, across the representation switch", "why_tests_cant": "The representation change happens at a size boundary; the claim is for every sequence.", "anchors": ["diskann/src/graph/internal/backedge.rs::BackedgeBuffer"]}
{"id": "C07", "title": "Pruned neighbour lists are bounded, duplicate-free subsets", "statement": "For every candidate pool, distance function, alpha and degree bound, the neighbours chosen when pruning a vertex are at most the degree bound many, pairwise distinct, all members of the pool, and never the vertex itself; the pruning procedure terminates; and when saturation is requested the result falls short of the degree bound only if every usable member of the pool is already in it.", "quantifier": "every pool (any length, duplicates, ties), every distance function including non-metric ones, every alpha and degree", "why_tests_cant": "Inputs are unbounded and the inner loop's termination depends on all of them.", "anchors": ["diskann/src/graph/internal/prune.rs::robust_prune", "diskann/src/graph/index.rs::occlude_list"]}
{"id": "C08", "title": "Every dropped candidate is covered (RobustPrune correctness)", "statement": "If pruning stops with fewer neighbours than the degree bound, every usable pool candidate that was not chosen is occluded at the final alpha by some chosen neighbour at least as close to the vertex, and a candidate that is chosen was not occluded, at the alpha in force, by any previously chosen closer neighbour; in particular the closest usable candidate is always chosen.", "quantifier": "every pool, every distance function, every alpha >= 1", "why_tests_cant": "This is the geometric contract of the graph; tests check particular point sets only.", "anchors": ["diskann/src/graph/internal/prune.rs::robust_prune", "diskann/src/graph/config/mod.rs::PruneKind::update_occlude_factor"]}
{"id": "C09", "title": "Degree bound survives any history of graph updates", "statement": "If every vertex's out-degree is within the configured maximum and lists are duplicate-free, then after any sequence of insertions, batch insertions, in-place and batch deletions, back-edge additions, prunes, consolidations and removals of deleted neighbours every vertex's out-degree is still within the maximum and its list still duplicate-free; and pruning a vertex whose vector is readable brings it down to the pruned degree.", "quantifier": "every history of graph update operations over every graph and distance function", "why_tests_cant": "Invariant over unbounded histories.", "anchors": ["diskann/src/graph/index.rs::add_edge_and_prune", "diskann/src/graph/index.rs::consolidate_vector", "diskann/src/graph/index.rs::drop_deleted_neighbors", "diskann/src/graph/index.rs::prune_range"]}
{"id": "C10", "title": "Back-edge update writes only what was asked for", "statement": "Adding targets T to vertex v with room for all of them yields exactly the old list followed by the new distinct targets; when it does not fit, the written list is drawn from the old list and T only; a vertex's list is never replaced by some other vertex's pruning result.", "quantifier": "every old list, every target list, every scratch state left by earlier operations, every transient failure", "why_tests_cant": "The failing case needs a transient fault at one point of a history.", "anchors": ["diskann/src/graph/index.rs::add_edge_and_prune", "diskann/src/graph/index.rs::robust_prune_list"]}
{"id": "C11", "title": "Consolidation eliminates deleted neighbours", "statement": "When consolidating a live vertex completes, none of its neighbours is a deleted id, its degree is within the pruned degree bound, every neighbour was either a live neighbour or a live neighbour of a deleted neighbour of that vertex, and it has no self-loop unless it already had one and nothing needed rewriting; when consolidation does not complete nothing is written.", "quantifier": "every graph, every deleted set, every vertex, every distance function", "why_tests_cant": "Quantifies over all graphs and delete sets.", "anchors": ["diskann/src/graph/index.rs::consolidate_vector"]}
{"id": "C12", "title": "Dropping deleted neighbours keeps live edges", "statement": "Dropping deleted neighbours from a vertex keeps every edge to a live vertex, in order; in 'only orphans' mode it additionally keeps exactly the edges to deleted vertices that still have outgoing edges, and otherwise removes every edge to a deleted vertex.", "quantifier": "every adjacency list, every deleted set", "why_tests_cant": "Quantifies over all lists and delete sets.", "anchors": ["diskann/src/graph/index.rs::drop_deleted_neighbors"]}
{"id": "C13", "title": "Greedy search never evaluates or expands a vertex twice", "statement": "During one greedy search every vertex's distance is computed at most once and every vertex is expanded at most once; the reported comparison count equals the number of distinct vertices whose distance was computed, and the search terminates on every finite graph.", "quantifier": "every finite graph (including dangling or cyclic edges), start set, beam width, list size and distance function", "why_tests_cant": "Termination and at-most-once are about every graph.", "anchors": ["diskann/src/graph/index.rs::search_internal", "diskann/src/graph/glue.rs::NotInMut"]}
{"id": "C14", "title": "Search with a large enough list is exact on the reachable set", "statement": "If the search list size is at least the number of vertices reachable from the start points, the greedy search returns exactly the reachable vertices, sorted by distance, so its first k are the true k nearest reachable neighbours.", "quantifier": "every finite graph, start set, beam width and distance function", "why_tests_cant": "Needs an argument over all graphs and traversal orders.", "anchors": ["diskann/src/graph/index.rs::search_internal", "diskann/src/neighbor/queue.rs"]}
{"id": "C15", "title": "Search results are sorted, distinct and reachable", "statement": "Whatever the list size L and beam width, the result list of a greedy search has at most L entries plus one per start point, is sorted by distance, contains no vertex twice, every entry carries its true distance, and every entry is reachable from the start points.", "quantifier": "every finite graph, start set, beam width, L, distance function", "why_tests_cant": "Invariant over all traversals.", "anchors": ["diskann/src/graph/index.rs::search_internal"]}
{"id": "C16", "title": "Reachability count is exact", "statement": "The reachable-node count reported for a graph equals the number of distinct vertices reachable from the given start points.", "quantifier": "every finite graph and start set", "why_tests_cant": "All graphs.", "anchors": ["diskann/src/graph/index.rs::count_reachable_nodes"]}
{"id": "C17", "title": "Range search returns only points in range, once, bounded", "statement": "Every id returned by a range search has distance within the requested radius and, if an inner radius is given, not within it; no id is returned twice; the number returned never exceeds the caller's maximum.", "quantifier": "every graph, radius, inner radius, slack, beam width and maximum", "why_tests_cant": "All graphs and traversals.", "anchors": ["diskann/src/graph/search/range_search.rs::range_search_internal"]}
{"id": "C18", "title": "Output buffers never overflow and keep order", "statement": "Writing results into caller-supplied buffers never writes past the shorter of the buffers, stores results in arrival order, reports 'full' exactly when no further item fits, and the reported count equals the number of items stored.", "quantifier": "every buffer length and every sequence of push / bulk-extend calls", "why_tests_cant": "All histories and lengths.", "anchors": ["diskann/src/graph/search_output_buffer.rs::IdDistance", "diskann/src/graph/search_output_buffer.rs::IdDistanceAssociatedData"]}
{"id": "C19", "title": "No slot is reclaimed while a reader that could see it is active", "statement": "In the in-memory store, for every interleaving of readers entering and leaving, deletes, reclamation and re-use, a slot that a reader has legitimately observed as readable is not handed to a new owner (and so its data is not overwritten) until that reader has left.", "quantifier": "every number of threads, every interleaving of the atomic steps of guard acquisition/release, retire, advance and drain, unbounded executions", "why_tests_cant": "Concurrency: all schedules.", "anchors": ["diskann-inmem/src/epoch.rs::Registry", "diskann-inmem/src/store.rs::Store"]}
{"id": "C20", "title": "Reclamation bookkeeping assertions never fire", "statement": "In every interleaving, whenever the store reclaims a retired slot the slot is still in the retired state (so the internal 'concurrency violation' panic is unreachable), each retirement is reclaimed at most once, and no two owners ever hold the same slot at the same time.", "quantifier": "every interleaving of acquire / publish / abandon / retire / drain steps by any number of threads", "why_tests_cant": "Concurrency: all schedules.", "anchors": ["diskann-inmem/src/store.rs::Store::try_drain", "diskann-inmem/src/store.rs::Store::retire", "diskann-inmem/src/store.rs::Slot"]}
{"id": "C21", "title": "Frozen entry points are permanent", "statement": "Frozen slots (start points) are never acquired, retired, reclaimed or made unreadable by any sequence of operations.", "quantifier": "every interleaving of store operations", "why_tests_cant": "All histories.", "anchors": ["diskann-inmem/src/store.rs::Store", "diskann-inmem/src/store.rs::Slot::freeze", "diskann-inmem/src/tag.rs"]}
{"id": "C22", "title": "Id mapping is a bijection at all times", "statement": "After any history of inserts and deletes the external-to-internal id map and its reverse are mutually inverse; an insert that fails (out of bounds, external exists, internal exists) changes nothing; a delete removes both directions.", "quantifier": "every history of insert/delete with arbitrary ids", "why_tests_cant": "Invariant over all histories.", "anchors": ["diskann-inmem/src/ids.rs::IdMap"]}
{"id": "C23", "title": "Insert and delete of a vector are all-or-nothing", "statement": "If setting an element fails at any step, no id mapping to the slot remains and the slot is available again; if it succeeds the mapping exists and the slot is readable; a delete either removes the mapping and retires the slot or leaves both untouched.", "quantifier": "every provider state and every failing step", "why_tests_cant": "Fault injection at every step over all states.", "anchors": ["diskann-inmem/src/provider.rs::set_element", "diskann-inmem/src/provider.rs::delete"]}
{"id": "C24", "title": "Slot allocator never hands out a slot twice and never loses capacity", "statement": "Fresh slot numbers are minted at most once and only below the capacity for every schedule; and, run without interference, an acquire succeeds whenever some slot is available.", "quantifier": "every schedule of concurrent mints; every store state for the sequential claim", "why_tests_cant": "All schedules and states.", "anchors": ["diskann-inmem/src/freelist.rs::Freelist", "diskann-inmem/src/store.rs::Store::acquire", "diskann-inmem/src/store.rs::Store::scan_acquire"]}
{"id": "C25", "title": "In-memory neighbour lists are isolated and bounded", "statement": "Reading a vertex's neighbour list returns exactly what was last written to that vertex; writing or appending to one vertex never changes another; an out-of-range or too-long write changes nothing.", "quantifier": "every history of set/append over every vertex", "why_tests_cant": "All histories and strides.", "anchors": ["diskann-inmem/src/neighbors.rs::Neighbors"]}
{"id": "C26", "title": "Dynamic work distribution hands out every item exactly once", "statement": "For every number of workers and every interleaving, the work balancer hands each item to exactly one worker, hands out nothing else, and once it has reported exhaustion to a worker after all items were handed out it never produces another item.", "quantifier": "every item count, worker count and interleaving of the atomic counter operations", "why_tests_cant": "Concurrency: all schedules.", "anchors": ["diskann/src/utils/async_tools.rs::DynamicBalancer"]}
{"id": "C27", "title": "Static partition covers the range exactly", "statement": "Splitting n items among t > 0 tasks gives every index below n to exactly one task, the pieces are contiguous and in order, and their sizes differ by at most one.", "quantifier": "every n and every t > 0, every task index", "why_tests_cant": "Arithmetic for all n, t.", "anchors": ["diskann/src/utils/async_tools.rs::partition", "diskann/src/utils/async_tools.rs::partition_impl"]}
{"id": "C28", "title": "Batch neighbourhood iterator visits the right items", "statement": "The iterator over the items around position i of a batch yields exactly min(len, n-1) items, never item i, never the same item twice, and all of them from the batch.", "quantifier": "every batch length n >= 1, position and requested length", "why_tests_cant": "Arithmetic with wrap-around for all inputs.", "anchors": ["diskann/src/utils/async_tools.rs::around", "diskann/src/utils/async_tools.rs::Around"]}
{"id": "C29", "title": "Chunking covers the batch exactly", "statement": "Concatenating the chunks of a batch gives the batch back, and every chunk but the last has the requested size.", "quantifier": "every batch, every chunk size > 0", "why_tests_cant": "All sizes.", "anchors": ["diskann/src/utils/async_tools.rs::arc_chunks"]}
{"id": "C30", "title": "Working set keeps what the current step needs within capacity", "statement": "In every mode that keeps entries between steps (capacity not zero), preparing the working set for a list of ids evicts no requested id that was resident; after filling, all requested ids the source can supply are present, and the number of residents does not exceed max(capacity, number of distinct requested ids). A working set layered over another never serves two different values for one id.", "quantifier": "every working-set state, capacity and request list", "why_tests_cant": "All histories.", "anchors": ["diskann/src/graph/workingset/map.rs::Map"]}
{"id": "C31", "title": "Persistent id allocator never hands out an id in use", "statement": "Across any history of allocate, free, mark-used and refill operations (any interleaving at the granularity of its atomic storage updates), an allocated id is not in use at the moment of allocation, and the in-use count equals the number of ids in use.", "quantifier": "every history and interleaving of allocator operations", "why_tests_cant": "All histories.", "anchors": ["diskann-garnet/src/fsm.rs::FreeSpaceMap::next_id", "diskann-garnet/src/fsm.rs::mark_id", "diskann-garnet/src/fsm.rs::refill_fast_free_list"]}
{"id": "C32", "title": "Allocator state survives restart", "statement": "After a restart at any point, the reloaded allocator reports the same in-use set and count as the persisted bitmaps, the next fresh id is above every id in use, and it only offers ids that are free.", "quantifier": "every persisted bitmap content", "why_tests_cant": "All states; also storage read faults.", "anchors": ["diskann-garnet/src/fsm.rs::load_state"]}
{"id": "C33", "title": "Quantization backfill visits every vector exactly once", "statement": "The id ranges processed by the backfill tasks are disjoint and together cover every existing id, for every number of tasks.", "quantifier": "every maximal id and task count", "why_tests_cant": "Arithmetic over all inputs.", "anchors": ["diskann-garnet/src/provider.rs::backfill_quant_vectors"]}
{"id": "C34", "title": "Cached start-point adjacency equals the stored one", "statement": "After any history of neighbour writes and appends, the cached neighbour list of the start point equals the list in the backing store, so searches through the cache and through the store agree.", "quantifier": "every history of set/append operations on every vertex", "why_tests_cant": "All histories; needs an append that fills the list part-way.", "anchors": ["diskann-garnet/src/provider.rs::append_vector", "diskann-garnet/src/provider.rs::set_neighbors"]}
{"id": "C35", "title": "Saved values load back unchanged", "statement": "Any record value written to a manifest loads back equal to what was saved (numbers compared by value).", "quantifier": "every value tree, including strings that look like numeric sentinels and non-finite floats", "why_tests_cant": "All values; tests use a few.", "anchors": ["diskann-record/src/value.rs::Value", "diskann-record/src/number.rs::Number"]}
{"id": "C36", "title": "Numeric accessors never lose information", "statement": "Reading a stored number as a type T either returns a T that denotes exactly the stored number or reports failure.", "quantifier": "every stored u64/i64/f64 and every target type", "why_tests_cant": "All 64-bit values.", "anchors": ["diskann-record/src/number.rs"]}
{"id": "C37", "title": "Version text round-trips and malformed text is rejected", "statement": "Formatting a version and parsing it back gives the same version; text that is not two dot-separated unsigned 32-bit decimals (each optionally with a plus sign or leading zeros) is rejected.", "quantifier": "every version and every string", "why_tests_cant": "All strings.", "anchors": ["diskann-record/src/version.rs::Version"]}
{"id": "C38", "title": "Artifact names within one save never collide", "statement": "Every artifact created in one save gets a distinct file name, whatever keys the caller supplies and however many artifacts are created, and no name escapes the save directory.", "quantifier": "every sequence of artifact keys", "why_tests_cant": "Unbounded counts and arbitrary key strings.", "anchors": ["diskann-record/src/save/context.rs", "diskann-record/src/backend/disk.rs::DiskSaveContext::write", "diskann-record/src/backend/memory.rs"]}
{"id": "C39", "title": "A save is atomic under crashes", "statement": "If the process stops at any point of a save, loading afterwards sees either the previously committed manifest or the new one, never a mixture, and whichever manifest is visible has all the artifacts it references, completely written.", "quantifier": "every crash point in every save, every prior directory content, every artifact count", "why_tests_cant": "All crash points.", "anchors": ["diskann-record/src/backend/disk.rs::DiskSaveContext"]}
{"id": "C40", "title": "A failed save does not damage other saves", "statement": "A save that fails or is abandoned removes only files it created itself.", "quantifier": "every failing step, every directory content, including another save in flight", "why_tests_cant": "Needs a second save in flight.", "anchors": ["diskann-record/src/backend/disk.rs::DiskSaveContext (Drop, finish)"]}
{"id": "C41", "title": "Index keys are unambiguous", "statement": "Two attribute (field, value) pairs get the same index key only if they are the same pair.", "quantifier": "every pair of fields and values of any type", "why_tests_cant": "All strings and values.", "anchors": ["diskann-label-filter/src/traits/key_codec.rs::DefaultKeyCodec::encode_field_value_key"]}
{"id": "C42", "title": "Index keys preserve numeric order", "statement": "For one field, integer keys are ordered in byte order exactly as the integers, float keys exactly as the (non-NaN) floats, and keys of different types or different fields never fall inside each other's ranges.", "quantifier": "every pair of 64-bit integers / floats and every field name", "why_tests_cant": "2^128 pairs.", "anchors": ["diskann-label-filter/src/traits/key_codec.rs::DefaultKeyCodec::encode_i64", "diskann-label-filter/src/traits/key_codec.rs::encode_f64"]}
{"id": "C43", "title": "Index-based filter evaluation agrees with direct evaluation", "statement": "For every filter expression the inverted index evaluates without error, the set of documents it returns is exactly the set of documents whose attributes satisfy the expression when evaluated directly.", "quantifier": "every set of documents, every filter expression", "why_tests_cant": "All documents and expressions.", "anchors": ["diskann-label-filter/src/kv_index/query_evaluator_impl.rs::evaluate_query", "diskann-label-filter/src/kv_index/generic_index.rs::get_integer_range_bounds", "diskann-label-filter/src/kv_index/generic_index.rs::get_float_range_bounds", "diskann-label-filter/src/parser/evaluator.rs::eval_query_expr"]}
{"id": "C44", "title": "Filter parser enforces every condition written", "statement": "A filter document that is accepted is translated to an expression that requires every condition appearing in the document.", "quantifier": "every filter document", "why_tests_cant": "All documents.", "anchors": ["diskann-label-filter/src/parser/query_parser.rs::parse_query_filter"]}
{"id": "C45", "title": "Key-list encoding round-trips and rejects truncation", "statement": "Decoding an encoded list of keys returns the list; decoding any strict prefix of an encoding is an error; decoding never reads out of bounds.", "quantifier": "every list of byte strings with lengths below 2^32, every truncation", "why_tests_cant": "All lists.", "anchors": ["diskann-label-filter/src/kv_index/generic_index.rs::serialize_key_list", "diskann-label-filter/src/kv_index/generic_index.rs::deserialize_key_list"]}
{"id": "C46", "title": "Bit-packed vectors: read returns last write, writes are isolated", "statement": "For every bit width 1..8 and every length, setting element i of a densely packed vector makes element i read back as the value set and leaves every other element unchanged, touching only bytes inside the vector.", "quantifier": "every width, length, index, value and prior content", "why_tests_cant": "All lengths; cross-byte cases.", "anchors": ["diskann-quantization/src/bits/slice.rs::Dense", "diskann-quantization/src/bits/packing.rs"]}
{"id": "C47", "title": "Bit-transposed layout: read returns last write, writes are isolated", "statement": "The same for the 4-bit transposed layout.", "quantifier": "every length, index, value and prior content", "why_tests_cant": "All lengths.", "anchors": ["diskann-quantization/src/bits/slice.rs::BitTranspose"]}
{"id": "C48", "title": "Fixed-size heap is a heap", "statement": "Building the heap permutes the input and puts its maximum at the root; updating the root with any function keeps the multiset of the remaining elements plus the updated one and again puts the maximum at the root; all accesses are in bounds.", "quantifier": "every non-empty slice, every sequence of root updates", "why_tests_cant": "All sizes and sequences.", "anchors": ["diskann-quantization/src/algorithms/heap.rs::SliceHeap"]}
{"id": "C49", "title": "Buffered reader delivers the file bytes in order", "statement": "Any sequence of reads through the buffered reader returns exactly the consecutive bytes of the file; a read past the end fails without consuming anything.", "quantifier": "every file content, buffer size and sequence of read sizes", "why_tests_cant": "All sequences.", "anchors": ["diskann-disk/src/storage/cached_reader.rs::CachedReader"]}
{"id": "C50", "title": "Buffered writer writes all bytes in order", "statement": "After any sequence of writes and a final flush, the file contains exactly the concatenation of the written bytes and the reported size equals its length.", "quantifier": "every buffer size and sequence of writes", "why_tests_cant": "All sequences.", "anchors": ["diskann-disk/src/storage/cached_writer.rs::CachedWriter"]}
{"id": "C51", "title": "Disk layout: what the writer puts down is what the reader finds", "statement": "For every index, reading vertex i from the disk file using the reader's sector and offset computation returns the vector, neighbour list and associated data the writer stored for vertex i; no two vertices overlap and no vertex overlaps the file header.", "quantifier": "every vertex count, vector size, degree, associated-data size and block size accepted by the writer", "why_tests_cant": "All parameter combinations, including node larger than block.", "anchors": ["diskann-disk/src/storage/disk_index_writer.rs::create_disk_layout", "diskann-disk/src/search/provider/disk_sector_graph.rs::DiskSectorGraph"]}
{"id": "C52", "title": "Disk index header round-trips", "statement": "Parsing a serialized graph header returns the same header; shorter input is rejected.", "quantifier": "every header value, every truncation", "why_tests_cant": "All values.", "anchors": ["diskann-disk/src/data_model/graph_header.rs", "diskann-disk/src/data_model/graph_metadata.rs", "diskann-disk/src/data_model/graph_layout_version.rs"]}
{"id": "C53", "title": "Static vertex cache returns what was last inserted", "statement": "After any history of cache inserts, looking up a cached vertex returns the vector, adjacency list and associated data of its last successful insert.", "quantifier": "every history of inserts, including re-inserting an id", "why_tests_cant": "All histories; re-insert followed by new insert.", "anchors": ["diskann-disk/src/data_model/cache.rs::Cache"]}
{"id": "C54", "title": "Recall is a true ratio and matches its definition", "statement": "Reported k-recall-at-n is the mean over queries of |top-k truth (with ties) \u2229 first n results| / k capped at 1, and lies between 0 and 1.", "quantifier": "every ground truth and result set", "why_tests_cant": "All inputs; quantifies over real numbers, not f64 rounding.", "anchors": ["diskann-benchmark-core/src/recall.rs::knn"]}
{"id": "C55", "title": "Neighbour records in the bf-tree store round-trip", "statement": "Reading a vertex's neighbours returns exactly the last list written, appending adds exactly the new distinct ids up to the maximum degree, and a failed write leaves the record unchanged \u2014 independently of what the reused scratch buffer contained. A deleted vertex reads as an error (or as empty once the tree forgets the deletion). Concurrent writers through accessors never lose an update and never deadlock.", "quantifier": "every history of set/append/delete on every vertex, every scratch buffer content, every schedule of concurrent accessors", "why_tests_cant": "All histories.", "anchors": ["diskann-bftree/src/neighbors.rs::NeighborProvider"]}
{"id": "C56", "title": "In-place deletion unlinks the vertex and repairs its neighbourhood", "statement": "When an in-place deletion of a vertex finishes, that vertex has no out-edges; no vertex the deletion examined (and whose vector is readable) still links to it; every new edge leads from one vertex to a different, live one; an examined in-neighbour with room is linked to its closest replacement candidates and each live out-neighbour is linked to from its closest candidates; degree bounds hold; and a following pass that drops deleted neighbours leaves no live vertex linked to it. The same holds for the vertices of a batch deletion.", "quantifier": "every graph, provider state, deletion method, number of replacements, hash iteration order, tie order, and (for batches) order in which the deletions of a batch become visible", "why_tests_cant": "All graphs and all hash orders; batch deletions race with each other.", "anchors": ["diskann/src/graph/index.rs::inplace_delete", "diskann/src/graph/index.rs::inplace_delete_inner", "diskann/src/graph/index.rs::multi_inplace_delete", "diskann/src/graph/index.rs::drop_deleted_neighbors"]}
{"id": "C57", "title": "Pages never overlap and eventually return everything", "statement": "Across any sequence of page requests of one paged search no id is returned twice, each page has at most the requested number of results in distance order, every result carries its true distance, is reachable from the seeds and is neither a start point nor a seed; a request is refused exactly when its size is zero or larger than L; and a short page (without early stop) means every reachable comparable vertex has been returned.", "quantifier": "every finite graph, seed set, start set, L, early-stop behaviour and sequence of page sizes", "why_tests_cant": "All graphs and all request histories.", "anchors": ["diskann/src/graph/index.rs::paged_search_with_init_ids", "diskann/src/graph/index.rs::next_page"]}
{"id": "C58", "title": "A reused search scratch behaves like a fresh one", "statement": "Running a search with a scratch object left over from any earlier search (any size) gives the same results and statistics as with a newly created scratch.", "quantifier": "every history of earlier use, every graph and search parameters", "why_tests_cant": "Quantifies over every earlier use of the pooled object.", "anchors": ["diskann/src/graph/search/scratch.rs::SearchScratch"]}
{"id": "C59", "title": "Range search statistics count the work done", "statement": "The comparison and hop counts reported by a range search equal the number of distances computed and of vertices expanded.", "quantifier": "every graph and range-search parameters", "why_tests_cant": "All graphs and traversals.", "anchors": ["diskann/src/graph/search/range_search.rs"]}
{"id": "C60", "title": "Loading a batch of vertices from disk serves each vertex its own data", "statement": "After a batch of vertex ids has been loaded and processed, the vector, neighbour list and associated data served for each id of the batch are those stored in the index file for that id.", "quantifier": "every index file, every batch of ids (repeats included), every history of earlier batches on the same provider", "why_tests_cant": "All batches and all earlier uses of the reusable buffers.", "anchors": ["diskann-disk/src/search/provider/disk_vertex_provider.rs::DiskVertexProvider", "diskann-disk/src/search/provider/disk_provider.rs::ensure_vertex_loaded"]}
{"id": "C61", "title": "The static cache of a disk index is transparent", "statement": "Building the static cache from an index file always succeeds and caches distinct vertices reachable from the start node, the requested number or all there are; a vertex provider with that cache serves every processed vertex of every batch with its own vector, neighbours and associated data, and never serves any vertex with data of another.", "quantifier": "every well-formed index, cache size, history of batches, and completion order", "why_tests_cant": "All graphs, all cache sizes and all request histories.", "anchors": ["diskann-disk/src/search/provider/disk_vertex_provider_factory.rs::build_cache_via_bfs", "diskann-disk/src/search/provider/cached_disk_vertex_provider.rs::CachedDiskVertexProvider"]}
{"id": "C62", "title": "Quantization handover misses no vector", "statement": "Once quantized inserts are enabled, every id ever handed out for an unquantized insert is at most the recorded backfill limit and no inserter still holds one; until id reuse is enabled, every id handed out is larger than all ids handed out or in use before.", "quantifier": "every interleaving of allocations, frees, storage failures and the switch", "why_tests_cant": "All schedules of concurrent inserters around the switch.", "anchors": ["diskann-garnet/src/fsm.rs::FreeSpaceMap::enable_quantization", "diskann-garnet/src/fsm.rs::FreeSpaceMap::next_id", "diskann-garnet/src/fsm.rs::ReuseGuard"]}
{"id": "C63", "title": "Diverse candidate lists respect the per-attribute limit and keep the best", "statement": "A diversity-limited candidate list never panics with accepted parameters; it always stores the best candidates offered subject to at most l in total and at most dk*l/k for each attribute value (a candidate is left out only if that many closer ones with its attribute, or l closer ones, are stored); after post-processing the results hold at most dk candidates of each attribute value, namely the closest stored ones, best first.", "quantifier": "every history of insertions (with or without attribute, NaN distances included), pops and clears, every attribute assignment, every accepted l, k, dk", "why_tests_cant": "Two levels of bounded lists are kept consistent by hand over arbitrary interleavings of evictions; ties only break it in particular orders.", "anchors": ["diskann/src/neighbor/diverse_priority_queue.rs::DiverseNeighborQueue::insert", "diskann/src/neighbor/diverse_priority_queue.rs::DiverseNeighborQueue::post_process", "diskann/src/graph/search/diverse_search.rs::Diverse"]}
{"id": "C64", "title": "Batch insertion writes each vector's edges and their reverses, whatever the schedule", "statement": "When a batch insertion finishes, every vector of the batch whose processing did not fail has its own pruned, duplicate-free list of out-edges drawn from what its search visited and from the batch; every vertex's list is its new (or old) list plus the batch vectors that chose it, in full if they fit and pruned from those otherwise; vertices nobody chose are unchanged; no list exceeds the degree bound or repeats an id. With readable vectors the resulting graph does not depend on the number of tasks, on which task processes what, or on hash order, and a batch of one gives the same graph as a plain insertion.", "quantifier": "every graph, batch of fresh ids, search record, intra-batch setting, bootstrap round, number of tasks, claim order, hash order and tie order", "why_tests_cant": "Tasks race for work and back-edges are aggregated in a hash map; a test sees one schedule and one hash seed.", "anchors": ["diskann/src/graph/index.rs::multi_insert", "diskann/src/graph/index.rs::aggregate_backedges", "diskann/src/graph/index.rs::robust_prune_with", "diskann/src/graph/index.rs::multi_insert_bootstrap_leaf"]}
{"id": "C65", "title": "Inline filtered search returns the best accepted vectors it evaluated", "statement": "A filtered k-nearest-neighbour search returns only vectors accepted by the filter, each once, reachable, with its true distance, at most the requested number, and they are the best of all accepted vectors whose distance was computed; if the list has room for everything reachable, the result is exactly the accepted reachable vectors in order of distance. Without adaptive list size the filter has no influence on which vectors are visited. The adapted list size lies between the requested size and the requested size times the scale factor.", "quantifier": "every finite graph, filter, list size, beam width, early-stop behaviour, tie order and finite scale factor", "why_tests_cant": "Graph, filter and sampling interact: a test fixes all three, and the sampling step fires at a data-dependent moment.", "anchors": ["diskann/src/graph/search/inline_filter_search.rs::inline_filter_search_internal", "diskann/src/graph/search/inline_filter_search.rs::compute_adaptive_l", "diskann/src/graph/search/inline_filter_search.rs::AdaptiveL"]}
{"id": "C66", "title": "Multi-hop filtered search finds accepted vectors across one rejected vector at a time", "statement": "A multi-hop filtered search returns only accepted vectors, each once, reachable, sorted, with true distances, at most the requested number, and they are the best of all accepted vectors whose distance was computed, rejected start points taking no place away. No distance is computed twice and no adjacency list read twice. With room for all rejected neighbours and enough list space, the result is exactly the accepted vectors reachable from the start points by steps to an accepted neighbour or to an accepted neighbour of a rejected neighbour.", "quantifier": "every finite graph, filter, list size, beam width, degree bound, early-stop behaviour and tie order", "why_tests_cant": "Whether a vector is found depends on the interplay of the filter, the two-hop cut-off and the visited set over the whole run.", "anchors": ["diskann/src/graph/search/multihop_filter_search.rs::multihop_search_internal", "diskann/src/graph/ext/labeled.rs::EvalFiltered"]}
{"id": "C67", "title": "Filtered range search outputs accepted vectors in the ring and misses none it can reach", "statement": "A filtered range search outputs only vectors accepted by the filter, within the radius, outside the inner radius, reachable, with true distances, no id twice and at most the maximum number. Every accepted vector in range that the first phase evaluated is kept. When the second phase runs without a maximum, every accepted vector in range connected to a hit through vectors within the slack radius, accepted or not, is found. The reported counters cover both phases.", "quantifier": "every finite graph, filter, radius, slack, inner radius, maximum, list size, beam width, early-stop behaviour and post-processing selection", "why_tests_cant": "Completeness is a statement about all paths of the graph; the merge of the two phases can duplicate or drop ids only for particular orders.", "anchors": ["diskann/src/graph/search/filtered_range_search.rs::FilteredRange", "diskann/src/graph/search/filtered_range_search.rs::filtered_range_search_internal"]}
{"id": "C68", "title": "A saved graph loads back exactly and a damaged graph file is not mistaken for another graph", "statement": "Saving a graph and loading the file gives the same adjacency lists in the same order, the same start point and number of start points, and the configured maximum degree. A file cut off anywhere is refused. A save that stops after any number of bytes leaves a file that is refused or loads as the lists of a leading part of the points, never as other lists; for an index with a start point it is refused as long as the header has not been brought up to date.", "quantifier": "every graph whose sizes fit the file format, every cut point of the file and every number of bytes an interrupted save wrote, header update included", "why_tests_cant": "The cut point and the byte at which a crash stops the writer range over the whole file; the number of points is not stored but inferred from the lists.", "anchors": ["diskann-providers/src/storage/bin.rs::save_graph", "diskann-providers/src/storage/bin.rs::load_graph", "diskann-providers/src/model/graph/provider/async_/simple_neighbor_provider.rs::load_direct"]}
{"id": "C69", "title": "The graph of a disk index reaches the same points as the in-memory graph it was made from", "statement": "Converting an in-memory graph (with a separate start point that copies the medoid) to a disk graph keeps every edge between base points, redirects edges to the start point to the medoid, keeps list lengths and names base points only, and every point reachable from the start point in memory is reachable from the medoid on disk.", "quantifier": "every in-memory graph with one start point and every medoid", "why_tests_cant": "Reachability depends on all paths; the points that can be lost are those reachable only through the list of the start point, to which nothing leads on disk.", "anchors": ["diskann-providers/src/model/graph/provider/async_/simple_neighbor_provider.rs::DiskAdaptor", "diskann-disk/src/build/builder/inmem_builder.rs"]}
{"id": "C70", "title": "Vector files give back the vectors written, whichever way they are read", "statement": "Vectors written to a file come back unchanged and in order: as a matrix, loaded into a store, through any sequence of next, skip and block reads, and sampled in any order of indices over any number of calls. Writing refuses only sizes the header cannot hold. A file that lost its end is refused.", "quantifier": "every list of vectors of any dimension and element size, every cut point, every sequence of iterator calls and every sequence of sampling calls", "why_tests_cant": "Skips, repeated and backward indices, calls after a failed call and cut points combine without bound.", "anchors": ["diskann-utils/src/io.rs::read_bin", "diskann-utils/src/io.rs::write_bin", "diskann-providers/src/storage/bin.rs::save_to_bin", "diskann-providers/src/storage/bin.rs::load_from_bin", "diskann-providers/src/utils/vector_data_iterator.rs::VectorDataIterator", "diskann-providers/src/utils/sampling.rs::SampleVectorReader"]}
{"id": "C71", "title": "A sharded build gives every point the neighbours its shards found", "statement": "In a build over shards every point is assigned to its k closest cluster centres, one strictly increasing id map per shard lists exactly the points assigned to it, and the merged graph file holds one list for every point: the distinct neighbours the point has in its shards under their ids in the whole collection, or, when there are more than the maximum degree, that many of them. The file has the layout of a saved graph and loads back. Every point can be reached from the start point of the merged graph.", "quantifier": "every number of points, shards and centres, every distance table, every block size, all shard graphs, every outcome of the random shuffles", "why_tests_cant": "Assignments, shard graphs and shuffles combine without bound, and the merge depends on all shards being read in step.", "anchors": ["diskann-disk/src/build/builder/core.rs::merge_shards", "diskann-disk/src/utils/partition.rs::shard_data_into_clusters_only_ids", "diskann-disk/src/utils/math_util.rs::compute_closest_centers_in_block"]}
{"id": "C72", "title": "A pooled object is never shared, lost or told apart from a new one", "statement": "However calls that take objects from a pool and guards that give them back interleave, with calls that fail or panic among them, every object is in exactly one place: waiting in the pool once, with one caller, or dropped exactly once. The pool never holds more than its capacity or its initial size. If reinitialising an object keeps its contract, every call returns what creating a new object would have returned, whether or not the object was reused.", "quantifier": "every interleaving of any number of requests, every capacity and initial size, every pooled type and outcome of its create and modify functions, every change callers make to objects", "why_tests_cant": "Schedules are unbounded; a double hand-out or double drop needs a particular interleaving of unlocking, failing and dropping.", "anchors": ["diskann-utils/src/object_pool.rs::ObjectPool", "diskann-utils/src/object_pool.rs::PooledRef", "diskann-utils/src/object_pool.rs::PooledArc", "diskann-utils/src/object_pool.rs::Undef"]}
{"id": "C73", "title": "Scalar quantization keeps the closest values, and its distances are those of the values kept", "statement": "Compressing a vector with a scalar quantizer reports an error exactly when a component is NaN. Every component is replaced by a representable value that is a closest one, so the error inside the quantizer's range is at most half the spacing. The squared Euclidean, inner product and normalized cosine results on two compressed vectors are those of the two vectors of representable values, and vectors of different length are rejected. The range of a trained quantizer is the mean of each dimension plus and minus the requested number of the largest standard deviation.", "quantifier": "every number of bits, dimension, scale, shift, input vector (NaN included) and training set; dimensions for which the 32-bit integer accumulator does not overflow", "why_tests_cant": "Inputs are unbounded real vectors; tests compare a few random vectors within a tolerance, which a code off by one still meets.", "anchors": ["diskann-quantization/src/scalar/quantizer.rs::ScalarQuantizer", "diskann-quantization/src/scalar/vectors.rs::CompensatedSquaredL2", "diskann-quantization/src/scalar/vectors.rs::CompensatedIP", "diskann-quantization/src/scalar/vectors.rs::CompensatedCosineNormalized", "diskann-quantization/src/scalar/train.rs::ScalarQuantizationParameters::train"]}
{"id": "C74", "title": "MinMax quantization keeps the closest values, and its distances are those of the values kept", "statement": "Compressing a vector with a MinMax quantizer, and recompressing a compressed vector to fewer bits, replaces every component by a closest representable value. The reported loss is the squared distance to the transformed input, decompression returns the values kept, and a constant vector is kept exactly. The representable values span the smallest to the largest component scaled by the grid scale (one bit: the means of the two halves). Inner product, squared Euclidean and cosine results between two compressed vectors of any bit widths, or a full precision query and a compressed vector, are those of the values kept.", "quantifier": "every number of bits, dimension, transform, grid scale, input vector (NaN included), pair of compressed vectors and recompression; dimensions for which the 32-bit integer accumulator does not overflow", "why_tests_cant": "Inputs are unbounded real vectors and pairs of bit widths; tests compare random vectors within a tolerance.", "anchors": ["diskann-quantization/src/minmax/quantizer.rs::MinMaxQuantizer", "diskann-quantization/src/minmax/vectors.rs::kernel", "diskann-quantization/src/minmax/vectors.rs::MinMaxL2Squared", "diskann-quantization/src/minmax/vectors.rs::MinMaxCosine", "diskann-quantization/src/minmax/vectors.rs::DataRef::decompress_into", "diskann-quantization/src/minmax/recompress.rs::recompress_kernel"]}
{"id": "C75", "title": "Distances between bit-packed vectors are exact on every architecture", "statement": "Squared Euclidean distance, inner product and Hamming distance of two bit-packed slices are those of the integer vectors the slices hold, reduced to 32 bits (so exact when they fit), whatever the architecture: scalar, AVX2, AVX-512 and Neon return the same bits. The inner product of a float vector with a slice is the inner product with the vector held. No byte outside the slices is read, padding bits do not matter, and slices of different lengths are refused.", "quantifier": "every element width (1 to 8 bits, 8 against 4, 2 and 1, four transposed bits against one), architecture, length and content of the slices", "why_tests_cant": "Each kernel has its own blocking, unrolling, tail and 16-bit intermediate sums; tests sample lengths and random contents, not every length, alignment of the tail, content and saturation boundary.", "anchors": ["diskann-quantization/src/bits/distances.rs::bitvector_op", "diskann-quantization/src/bits/distances.rs::SquaredL2", "diskann-quantization/src/bits/distances.rs::InnerProduct", "diskann-quantization/src/bits/distances.rs::Hamming", "diskann-quantization/src/bits/distances.rs::retarget"]}
{"id": "C76", "title": "Distances and norms of dense vectors are the mathematical ones on every architecture", "statement": "Squared Euclidean, Euclidean, inner product, cosine and normalized cosine distances between two f32, f16, mixed, i8 or u8 vectors, and the L2, L1 and maximum norms, equal the mathematical value (similarity scores negate the inner product and subtract the cosine from one), whatever the length and the SIMD architecture. Integer results are the exact sum rounded once to f32. A cosine lies in [-1, 1] and is zero when a squared norm is below the smallest normal f32. Announcing the dimension when asking for a distance function, or feeding a pair of vectors in pieces to a resumable computation, does not change the value. Vectors of different lengths panic; no element outside the slices is read.", "quantifier": "every architecture, element type, metric, output form, length, announced dimension and split; integer vectors whose exact sum fits 31 bits (every dimension up to 33025)", "why_tests_cant": "Tests sample lengths up to a few hundred on the architecture of the machine; the loop templates have five unrollings, each with its own handling of the remainder.", "anchors": ["diskann-vector/src/distance/simd.rs::simd_op", "diskann-vector/src/distance/simd.rs::MainLoop", "diskann-vector/src/distance/simd.rs::FullCosineAccumulator::sum", "diskann-vector/src/distance/implementations.rs::SquaredL2", "diskann-vector/src/distance/implementations.rs::Specialize", "diskann-vector/src/distance/distance_provider.rs::DistanceProvider", "diskann-vector/src/norm.rs::FastL2Norm"]}
{"id": "C77", "title": "Loading or storing the first n elements of a vector register touches exactly those elements", "statement": "Loading the first n elements at an address into a vector register returns those elements in the first lanes and zeros in the rest, and needs only the first min(n, lanes) elements to be readable: it never reads past them, so it is safe at the end of an allocation. Storing the first n lanes writes those elements and no others. Keep-first masks select exactly the first n lanes.", "quantifier": "every memory content, address, count (zero, and larger than the register, included), element width and register shape, on the portable, x86 and Neon implementations", "why_tests_cant": "Reading a byte too many is invisible to a test unless the next page is unmapped; counts, contents and shapes are combinatorial and no test machine runs all the targets.", "anchors": ["diskann-wide/src/arch/x86_64/algorithms.rs::__load_first_of_16_bytes", "diskann-wide/src/arch/x86_64/algorithms.rs::__load_first_u16_of_16_bytes", "diskann-wide/src/arch/aarch64/internal/load_first.rs", "diskann-wide/src/emulated.rs::load_simd_first", "diskann-wide/src/doubled.rs::load_simd_first", "diskann-wide/src/traits.rs::SIMDMask::keep_first", "diskann-wide/src/arch/x86_64/v3/masks.rs", "diskann-wide/src/arch/aarch64/masks.rs"]}
{"id": "C78", "title": "A block-transposed matrix holds exactly the matrix it was built from", "statement": "Building a block-transposed matrix from a strided view succeeds whenever the padded sizes are representable, and afterwards every way of reading it - by element, by row, by row iterator and by block - returns the source elements, with zeros in the padding; out-of-range reads are refused. Elements have distinct places, so writing one changes no other. A strided view is accepted exactly when its data covers its rows, and its rows are the corresponding stretches of the data.", "quantifier": "every matrix shape (no rows and no columns included), stride, contents, group width and packing factor", "why_tests_cant": "Shapes, remainders of rows and columns, group widths and packing factors combine without bound; raw-pointer writes outside the allocation need not fail a test.", "anchors": ["diskann-utils/src/strided.rs::StridedBase", "diskann-quantization/src/multi_vector/block_transposed.rs::BlockTransposed", "diskann-quantization/src/multi_vector/block_transposed.rs::BlockTransposedRepr", "diskann-quantization/src/multi_vector/block_transposed.rs::Row"]}
{"id": "C79", "title": "Product quantization encodes each chunk by a closest pivot", "statement": "A partition of the dimensions is accepted exactly if it is one, and the even partition has the promised chunk sizes. Encoding a finite vector writes for each chunk the index of a closest pivot, with either table; where the closest pivot is unique the tables agree. A vector with an infinity or NaN is rejected with the first offending chunk. Encoding a matrix gives the codes of the single vectors, and the batch interface reports every row and chunk exactly once, in order, up to the first error. The table of partial results holds the squared distance, or negated inner product, between each chunk of the query and each pivot. With arbitrary pivots, NaN included, no code ever names a missing pivot.", "quantifier": "every dimension, partition, number and content of pivots, vector, matrix and (for batches) delegate, with exact arithmetic on finite numbers and the usual rules for infinities and NaN", "why_tests_cant": "Pivots are stored in blocks of sixteen with masked remainders and scanned in lanes of eight; shapes, remainders, ties and non-finite values combine without bound.", "anchors": ["diskann-quantization/src/views.rs::ChunkOffsetsBase", "diskann-quantization/src/views.rs::fill_chunk_offsets", "diskann-quantization/src/product/tables/basic.rs::BasicTableBase", "diskann-quantization/src/product/tables/transposed/pivots.rs::Chunk", "diskann-quantization/src/product/tables/transposed/table.rs::TransposedTable", "diskann-quantization/src/product/tables/transposed/common.rs::square_norm"]}
{"id": "C80", "title": "Distances to product quantization codes are distances to the vectors the codes stand for", "statement": "A product quantization table is accepted exactly if its shape is consistent and it has at most 256 centers. Inflating a code gives the concatenation of the chunks of the pivots it names. The distance computer returns the distance between the query, or another code's vector, and the vector the code stands for, for every metric; a query computer built from lookup tables returns the same numbers, except that the metric for normalized vectors becomes the squared distance. Looking up many codes at once gives every code exactly the value that looking it up alone gives, leaves the rest of the output untouched, and gathers the codes of the requested ids in order. Disk search prepares a query so that each id gets the distance to its stored code's vector. With two schemas the distance uses for each code the schema of its version, also across versions, and codes of unknown versions have no distance. The code that encoding assigns to a vector has the least squared distance of all codes.", "quantifier": "every dimension, partition, number and content of pivots, codes, query, metric, list of ids, buffer contents and pair of schema versions, with exact arithmetic", "why_tests_cant": "Lookup is tiled and unrolled over chunks with a fixed stride of 256, buffers are reused between queries, and partitions, center counts, versions and metrics combine without bound.", "anchors": ["diskann-providers/src/model/pq/fixed_chunk_pq_table.rs::FixedChunkPQTable", "diskann-providers/src/model/pq/fixed_chunk_pq_table.rs::pq_dist_lookup_single", "diskann-providers/src/model/pq/fixed_chunk_pq_table.rs::compute_pq_distance", "diskann-providers/src/model/pq/distance/dynamic.rs::QueryComputer", "diskann-providers/src/model/pq/distance/dynamic.rs::DistanceComputer", "diskann-providers/src/model/pq/distance/multi.rs::MultiDistanceComputer", "diskann-providers/src/model/pq/distance/multi.rs::MultiQueryComputer", "diskann-disk/src/search/pq/quantizer_preprocess.rs::quantizer_preprocess"]}
{"id": "C81", "title": "A disk search returns the closest stored points of its candidates, with their data and vectors", "statement": "A search over a disk index returns, for the candidates of its mode, the k closest by full-precision distance, closest first, without repeats, each with the distance, data and vector stored for it; the number of valid results is the smaller of k and the number of candidates, and the rest of the k places is filled with id 0, zero and default data. The candidates of a flat scan are the L points accepted by the filter with the best quantized distances, so a flat scan with a long enough list returns the true nearest accepted points. The candidates of a graph search are the accepted points of the beam search over the stored graph from the entry point, in which only the first search_io_limit expanded vertices have out-edges; with enough list and I/O it returns the true nearest accepted points reachable from the entry point. A diverse search returns the selected rows of those candidates, in the selected order. Results do not depend on the scratch taken from the pool, and asking for vectors changes nothing but adding them. A list smaller than k, and in graph modes an empty list or beam, is refused. A graph search reads no vertex twice, and counts at most search_io_limit reads.", "quantifier": "every index, graph, entry point, quantized and full-precision distance, filter, k, list size, beam width, I/O limit, batch capacity, sort that respects the distances, diversity selection and contents of the pooled scratch", "why_tests_cant": "The traversal uses quantized distances, the answer full-precision ones, and distances cached during expansion, reads cut off by the limit and vertices loaded while reranking mix differently for every graph and limit.", "anchors": ["diskann-disk/src/search/provider/disk_provider.rs::DiskIndexSearcher", "diskann-disk/src/search/provider/disk_provider.rs::DiskAccessor", "diskann-disk/src/search/provider/disk_provider.rs::RerankAndFilter", "diskann-disk/src/search/provider/disk_provider.rs::DeterminantDiversityAndFilter", "diskann-disk/src/search/provider/disk_provider.rs::SearchOutput"]}
{"id": "C82", "title": "Diversity reranking reorders the candidates greedily by the determinant it spans", "statement": "The diversity selection returns the smaller of k and the number of candidates, as distinct row numbers, and never panics, whatever rounding, infinities or NaN do; a smaller k returns the beginning of what a greater one returns. A query of another dimension or a wrong number of distances is refused. With exact arithmetic every row selected maximizes the determinant of the Gram matrix of the scaled vectors selected so far together with it, and closer candidates are scaled by at least as much as farther ones, none to zero. The in-memory post-processor hands on exactly its candidates with their distances, reordered; a diverse disk search returns k accepted candidates, or all if there are fewer, each once with its stored data, vector and distance.", "quantifier": "every candidate matrix, list of distances, query, k, parameters and arithmetic (for the determinants: every ordered field)", "why_tests_cant": "The optimum is over all remaining candidates at every step and rests on an incremental update of residuals and norms; degenerate, repeated and dependent vectors take different paths.", "anchors": ["diskann-providers/src/model/graph/provider/determinant_diversity.rs::determinant_diversity", "diskann-providers/src/model/graph/provider/determinant_diversity.rs::greedy_orthogonal_select", "diskann-providers/src/model/graph/provider/determinant_diversity.rs::distance_to_similarity", "diskann-providers/src/model/graph/provider/async_/inmem/full_precision.rs::DeterminantDiversity", "diskann-disk/src/search/provider/disk_provider.rs::DeterminantDiversityAndFilter"]}
{"id": "C83", "title": "Distance-preserving transforms are isometries, or unbiased samples of one", "statement": "The Hadamard transform refuses lengths that are not powers of two and otherwise multiplies the vector with the Hadamard matrix divided by the root of the length, on every instruction set; it preserves inner products and is its own inverse. A transform has the input dimension asked for and the documented output dimension, needs a random generator unless it is the null transform, and refuses vectors and destinations of other lengths. The padding, double and rotation transforms compute their documented matrix product whatever was in the destination; a transform that reports preserving norms preserves inner products, norms and distances, and one that drops coordinates scales them so that inner products are right on average over all samples of that size. It reports preserving norms exactly when it drops no coordinate.", "quantifier": "every ordered field with square roots, every dimension and target dimension, every outcome of the random draws, every pair of vectors and every content of the destination", "why_tests_cant": "A test compares a few dimensions with a tolerance; the recursion, the unrolled kernel for 64 elements, padding, odd dimensions and sampling interact differently for every dimension.", "anchors": ["diskann-quantization/src/algorithms/hadamard.rs::hadamard_transform", "diskann-quantization/src/algorithms/transforms/padding_hadamard.rs::PaddingHadamard", "diskann-quantization/src/algorithms/transforms/double_hadamard.rs::DoubleHadamard", "diskann-quantization/src/algorithms/transforms/random_rotation.rs::RandomRotation", "diskann-quantization/src/algorithms/transforms/null.rs::NullTransform", "diskann-quantization/src/algorithms/transform.rs::Transform"]}
{"id": "C84", "title": "Saved transforms read back unchanged, and what is accepted can be used", "statement": "A new transform serialized and read back is the same transform, and reading then serializing yields the same bytes' content. Reading never panics in a release build and accepts exactly the serializations with consistent dimensions and an increasing sample within range, reporting an error otherwise. Every accepted transform has the dimensions it announces, transforms every vector of that dimension without a panic, and, if it is made of signs and has no sample, preserves inner products.", "quantifier": "every transform that can be built (dimensions up to 2^31) and every serialized transform, from whatever source", "why_tests_cant": "Files come from other programs and versions; the checks on the parts must imply that no later index is out of range, for every combination of lengths.", "anchors": ["diskann-quantization/src/algorithms/transforms/mod.rs::Transform::try_unpack", "diskann-quantization/src/algorithms/transforms/double_hadamard.rs::DoubleHadamard::try_from_parts", "diskann-quantization/src/algorithms/transforms/padding_hadamard.rs::PaddingHadamard::try_from_parts", "diskann-quantization/src/algorithms/transforms/random_rotation.rs::RandomRotation::try_unpack", "diskann-quantization/src/algorithms/transforms/null.rs::NullTransform::try_unpack"]}
{"id": "C85", "title": "k-means clusters as Lloyd's algorithm and k-means++ prescribe, and pivot training never loses to its start", "statement": "In every repetition of Lloyd's algorithm each row is assigned to its closest center (the first of equally close ones) and each center becomes the mean of its rows, or zero without rows. The sum of squared distances never grows: the returned centers are at least as good as the reported residual, which is at most that of the initial centers under any assignment. k-means++ picks pairwise different rows, each with a probability proportional to its squared distance from those picked before, as many as there are centers or different rows, leaves the other centers zero, and reports what was lacking. Training product quantization pivots succeeds on any non-empty data unless canceled, never loses to its initial centers, and is lossless for a chunk with at most as many different rows as centers; the dense form holds the rows of all chunks side by side.", "quantifier": "every data set and every width (blocks of sixteen rows and the rest, even and odd numbers of centers), all initial centers, numbers of repetitions, random draws, chunkings and cancellation points", "why_tests_cant": "The vector kernels have different code for full and partial blocks and for odd numbers of centers, and the monotonicity holds over all data and iterations; tests compare a few random cases.", "anchors": ["diskann-quantization/src/algorithms/kmeans/lloyds.rs::lloyds", "diskann-quantization/src/algorithms/kmeans/lloyds.rs::distances_in_place", "diskann-quantization/src/algorithms/kmeans/lloyds.rs::update_centroids", "diskann-quantization/src/algorithms/kmeans/plusplus.rs::kmeans_plusplus_into", "diskann-quantization/src/algorithms/kmeans/plusplus.rs::update_distances", "diskann-quantization/src/algorithms/kmeans/common.rs::square_norm", "diskann-quantization/src/product/train.rs::LightPQTrainingParameters::train", "diskann-quantization/src/product/train.rs::SimplePivots::flatten"]}
{"id": "C86", "title": "Clustering for the disk index", "statement": "`compute_closest_centers` assigns every point to its closest center (k = 1, the first of several equally close), or to its k closest centers, nearest first, and appends every point to the inverted list of each of its centers in ascending order; inconsistent lengths are errors. `run_lloyds` alternates that assignment with replacing every center by the mean of its points, never ends with a worse clustering than it started with, returns the sum of the squared distances of its result as residual and stops when that sum has stopped improving or the repetitions are used up. `k_meanspp_selecting_pivots` returns rows of the data, different ones as long as there are any, each chosen with a probability proportional to its squared distance from those before, and never hits its internal errors. With as many centers as different points `k_means_clustering` is lossless.", "quantifier": "all data sets, dimensions, numbers of centers and repetitions, buffers, random draws and heap orders among equal distances", "why_tests_cant": "The residual is correct for every data set of at most 16384 points, which is what tests use; whether an internal error can occur depends on the real number drawn and on the data.", "anchors": ["diskann-disk/src/utils/kmeans.rs: lloyds_iter, run_lloyds, k_meanspp_selecting_pivots, k_means_clustering", "diskann-disk/src/utils/math_util.rs: compute_vecs_l2sq, compute_closest_centers_in_block, compute_closest_centers"]}
{"id": "C87", "title": "Encoded attributes and inline filtered search", "statement": "With integer-encoded attributes, after any history of setting and deleting attributes: setting attributes succeeds exactly if there is at least one, deleting says whether the vector had any, a vector exists exactly if it has attributes, and the inverted index lists under an attribute exactly the vectors that have it. A filter encoded at any time is, at any later time, true of a vector exactly if the vector's current attributes satisfy it; it is accepted exactly if each of its comparisons is an equality with a value some vector ever had in that field. A search sees the distance of every candidate, times beta if the candidate satisfies the filter, favours those candidates, and returns exactly the candidates that satisfy the filter, in order. The status of a document follows its history: valid once set, deleted once deleted.", "quantifier": "all histories of set, delete and release on all vectors, all attribute values including NaN and signed zero, all filters, all interleavings of a search with later writes, all beta and distances", "why_tests_cant": "Ids stay valid only if no later insertion, replacement or deletion reuses or renumbers them; deletion fails if the forward and the inverted index ever disagree. Both are statements about histories.", "anchors": ["diskann-label-filter/src/encoded_attribute_provider/attribute_encoder.rs: AttributeEncoder", "diskann-label-filter/src/encoded_attribute_provider/roaring_attribute_store.rs: RoaringAttributeStore", "diskann-label-filter/src/encoded_attribute_provider/ast_label_id_mapper.rs: ASTLabelIdMapper", "diskann-label-filter/src/encoded_attribute_provider/document_provider.rs: DocumentProvider", "diskann-label-filter/src/inline_beta_search/inline_beta_filter.rs: InlineBetaComputer, FilterResults", "diskann-label-filter/src/inline_beta_search/encoded_document_accessor.rs: EncodedDocumentAccessor", "diskann-label-filter/src/set/roaring_set_provider.rs: RoaringTreemapSetProvider"]}
{"id": "C88", "title": "Multi-vector similarity", "statement": "For a query and a document that are sets of vectors of one dimension, scoring gives each query vector minus its largest inner product with a document vector, whatever kernel is chosen (any panel size), however the cache budget cuts query and document into tiles, and whatever the score buffer held; no access leaves a buffer. All kernels agree with the reference, including on the buffer-length error and on an empty document, which gets the largest float in every slot. A document of another dimension panics. The Chamfer distance is the sum of the scores; the projected-eigen distance is minus the sum of the squares of all inner products. The same holds for quantized multi-vectors.", "quantifier": "all numbers of query and document vectors, dimensions (zero included), element values, panel sizes up to four document rows, tile budgets, score buffers", "why_tests_cant": "The tiled loops have a peeled tile, a partial panel and padded rows, so correctness depends on the residues of both row counts by the panel and tile sizes, which depend on the dimension and the budget; a skipped row or a read past a tile shows only for particular residues.", "anchors": ["diskann-quantization/src/multi_vector/distance/kernels/tiled_reduce.rs: tiled_reduce, FullReduce", "diskann-quantization/src/multi_vector/distance/kernels/f32/v3.rs: f32_microkernel", "diskann-quantization/src/multi_vector/distance/kernels/f32/scalar.rs: scalar_f32_microkernel", "diskann-quantization/src/multi_vector/distance/kernels/f32/mod.rs: max_ip_kernel", "diskann-quantization/src/multi_vector/distance/kernels/layouts.rs: ConvertTo", "diskann-quantization/src/multi_vector/distance/factory.rs: Prepared, ReferenceKernel", "diskann-quantization/src/multi_vector/distance/fallback.rs: FallbackKernel, MaxSim, Chamfer, ProjectedEigen", "diskann-quantization/src/multi_vector/distance/max_sim.rs: MaxSim", "diskann-quantization/src/minmax/multi/max_sim.rs: MinMaxKernel"]}
{"id": "C89", "title": "Flat search is exact", "statement": "A brute-force search for the k nearest elements returns min(k, number of elements with a comparable distance) elements in order of increasing distance, none of the elements left out is nearer than one returned, and it reports one comparison per element. The order in which the provider streams its elements changes neither the distances nor, without ties, the elements. If the scan fails at any point, with any kind of error, the search is an error and nothing is written: there are no partial results. A post-processor that drops candidates is applied to the k nearest, so it may return fewer than k although more would pass.", "quantifier": "all streams of elements (repeated ids, ties, NaN distances, any order), all k, all output buffers, all points of failure", "why_tests_cant": "The answer depends on the order of the stream, on ties and on where a scan fails; a fixed grid exercises one order.", "anchors": ["diskann/src/flat/index.rs: FlatIndex::knn_search", "diskann/src/flat/strategy.rs: DistancesUnordered, SearchStrategy", "diskann/src/graph/glue.rs: CopyIds"]}
{"id": "C90", "title": "Ground truth is exact and survives its file", "statement": "The ground truth computed for a query is a list of the k nearest permitted points of the dataset, whatever the batching, the thread pool, the ties, the NaN distances and the bitmap of the query; with an insert file the inserted points follow the base points. The file written is read back as exactly these ids and distances, k per query; with filters, as one list of ids per query. Range ground truth is the set of permitted points within the radius, in order. Multi-vector ground truth uses the mean over pairs, the minimum over pairs or the mean of minima. A filter file gives back its sets. With associated data the file holds the records of the nearest points in the same order.", "quantifier": "all datasets, distance functions, k, bitmaps, lists of queries, insert files", "why_tests_cant": "Batches of ten thousand, ids continued across batches and files, ties and missing distances: a test data set fits in one batch.", "anchors": ["diskann-tools/src/utils/ground_truth.rs: compute_ground_truth_from_data, compute_range_ground_truth_from_data, compute_multivec_ground_truth_from_data, write_ground_truth, write_range_search_ground_truth, compute_ground_truth_from_datafiles", "diskann-tools/src/utils/search_index_utils.rs: load_truthset, load_range_truthset, load_vector_filters"]}
{"id": "C91", "title": "Label bitmaps hold exactly the documents that satisfy the filter", "statement": "The ground truth tool computes, for each query filter, the set of the documents whose labels satisfy it, from one accelerator per label. There is one bitmap per query, in order, and it holds exactly the ids of the documents whose attributes satisfy the filter. On labels of nested objects, and filters without negation over a missing field and without constants of another number type, this is the set of the documents the direct evaluator accepts. The attributes of a label are its scalars, each under the dotted path that leads to it. A computation that succeeds met no NaN and no integer that a double cannot hold.", "quantifier": "all collections of documents with distinct ids, all lists of filters, of any depth", "why_tests_cant": "A test compares a few filters on a few documents; that the two evaluators agree is a statement about all filters and labels, and the negation, the number types and the missing fields are where they part.", "anchors": ["diskann-tools/src/utils/compute_bitmap.rs: compute_query_bitmaps, eval_query_using_accelerators, compute_universe, InvertedIndexAccelerator, BTreeAccelerator", "diskann-label-filter/src/parser/evaluator.rs: eval_query_expr", "diskann-label-filter/src/utils/flatten_utils.rs: flatten_json_pointers_with_config"]}
{"id": "C92", "title": "Spherical quantization compresses and compares vectors as documented", "statement": "Compressing a vector with a spherical quantizer reports a wrong source length, a wrong destination length and a component that is not finite, in this order, and otherwise never hangs. A compressed vector has one code of b bits per output dimension and the sum of its codes in its metadata; at one bit the codes are signs. The distance functor of the quantizer's metric, on two compressed vectors, on a compressed query and a vector, and on a full-precision query and a vector, returns the distance that belongs to the stored terms and to the inner product of the vectors the codes stand for. The codes stand for a vector with the right projection onto the transformed centered vector, so that a full-precision query is at the exact distance from its own vector, a vector at the center at the exact distance from every vector, and the error of any other full-precision distance is bounded by the excess length of the codes. Compressed queries reproduce each component up to half a step of the grid between the least and the greatest. Training takes the (normalized) mean times the pre-scale as center and rejects data without columns, rows or mass. Every finite vector can be compressed, distances are numbers, and they are compatible with full-precision distances.", "quantifier": "every quantizer, transform, metric, bit width, vector, query, destination and order of the heap; exact arithmetic", "why_tests_cant": "The metadata, the offset terms and the metric specific terms must fit together for every vector, query and center; tests compare a few hundred random vectors with tolerances.", "anchors": ["diskann-quantization/src/spherical/quantizer.rs: SphericalQuantizer::{train,generate,preprocess}, CompressIntoWith, FinishCompressing, compress_via_maximum_cosine", "diskann-quantization/src/spherical/vectors.rs: DataMeta, kernel, CompensatedSquaredL2, CompensatedIP, CompensatedCosine", "diskann-quantization/src/utils.rs: compute_means_and_average_norm, compute_normalized_means"]}
{"id": "C93", "title": "Spherical codes are the best codes", "statement": "At one bit, no other choice of codes has a greater cosine similarity with the transformed vector than the codes a compression produces. At two, four and eight bits the squared cosine similarity of the produced codes is at least 999/1000 of that of any choice of codes that points to the same side.", "quantifier": "every vector, transform, bit width, order in which the heap returns equal critical values, and every one of the 2^(b\u00b7dim) choices of codes", "why_tests_cant": "The number of code vectors is exponential in the dimension; tests compare with a grid of scales on random vectors of small dimension.", "anchors": ["diskann-quantization/src/spherical/quantizer.rs: maximize_cosine_similarity, compress_via_maximum_cosine, FinishCompressing"]}
{"id": "C94", "title": "Pivot files of product quantization are complete or refused", "statement": "Writing a table of pivots and loading the file gives the pivots with the centroid added back and the same chunk offsets. Loading any file gives a well formed table or an error. A write cut short leaves a file that is refused, or the complete table. A write is refused exactly when the counts do not match or a number does not fit the format. Preparing the compression of a data set trains only when there is no file, uses the table in the file otherwise, with the requested numbers of chunks and centers, and can be repeated after a crash. Centering the training data by its mean is undone on loading.", "quantifier": "every table, centroid, partition into chunks, byte string found in the file, crash point of the write, training outcome and f32 addition (bit patterns)", "why_tests_cant": "The place fields of the header are written last, after the data, so every crash point and every damaged file must be considered; tests write and read a few tables.", "anchors": ["diskann-providers/src/storage/pq_storage.rs: write_pivot_data, load_pivots, read_pivot_file, read_existing_pivot_metadata, pivot_data_into_basic_table", "diskann-providers/src/utils/storage_utils.rs: read_bin_from, write_bin_from", "diskann-providers/src/model/pq/pq_construction.rs: generate_pq_pivots, move_train_data_by_centroid, accum_row_inplace", "diskann-disk/src/storage/quant/pq/pq_generation.rs: PQGeneration::new"]}
{"id": "C95", "title": "Compressed data files hold the code of every vector", "statement": "Compressing a data file writes the code of every vector, in order, whatever the block size and whatever was in the output file before, and the loader returns these codes. A vector that cannot be encoded makes the call fail and leaves a file that the loader refuses; so does an interruption at any point. A data file shorter than its header says is never compressed successfully. Without vectors the call fails and an existing output is kept. Resuming behind a correct prefix gives the codes of all vectors; an existing file is validated against the offset; compression works for every element type.", "quantifier": "every compressor that works row by row, data file, block size, crash point, existing output file and resume offset", "why_tests_cant": "Block boundaries, resume offsets, damaged data and crash points interact; tests compress a few small files in one block.", "anchors": ["diskann-disk/src/storage/quant/generator.rs: QuantDataGenerator::generate_data", "diskann-disk/src/storage/quant/compressor.rs: QuantCompressor", "diskann-providers/src/model/pq/pq_construction.rs: generate_pq_data_from_pivots", "diskann-providers/src/storage/pq_storage.rs: load_pq_compressed_vectors_bin", "diskann-tools/src/utils/build_pq.rs: build_pq"]}
{"id": "C96", "title": "Runbooks that load are consistent", "statement": "Loading a runbook of streaming operations succeeds only if, stage by stage in the order of the stage numbers, inserted tags are new and replaced and deleted tags are active; it then reports the largest tag ever inserted and a number of points at least the largest number of tags active at once. A file that describes such stages loads, and its stages are those of the file. Loading never panics. A search stage gets the only file of the ground truth directory that is named after it, and the files written for the stages of a runbook are found again.", "quantifier": "every YAML mapping, every list of stages and every directory content", "why_tests_cant": "Validation keeps a compacted list of disjoint ranges with an assertion; splitting, merging and overlapping ranges combine without bound. Tests run a few short books.", "anchors": ["diskann-benchmark-core/src/streaming/executors/bigann/validate.rs: Validate, SimpleRange", "diskann-benchmark-core/src/streaming/executors/bigann/parsing.rs: load_mapping, parse_stages, handle_stage", "diskann-benchmark-core/src/streaming/executors/bigann/runbook.rs: RunBook::new, run_with_internal, ScanDirectory"]}
{"id": "C97", "title": "Running a runbook through tags and slots is like running it on a table of vectors", "statement": "A valid runbook that is executed through the layer that maps external tags to slots of an index runs to its end; every search gets ground truth in which each tag stands for the slot that holds the tag's latest vector; afterwards each live tag has a slot of its own with its latest vector and nothing else is live. This holds for immediate reuse of slots as long as the number of active points stays below the capacity, and for deferred reuse with the capacity computed from the consolidation threshold. Slots of start points are never handed out.", "quantifier": "every valid runbook, data set, ground truth, threshold, order in which deleted slots are returned, and index that holds one vector per slot", "why_tests_cant": "Which slot a tag has depends on the whole history of insertions, deletions and maintenance; tests run one short history.", "anchors": ["diskann-benchmark/src/utils/streaming.rs: TagSlotManager", "diskann-benchmark/src/index/streaming/managed.rs: Managed", "diskann-benchmark-core/src/streaming/executors/bigann/withdata.rs: WithData", "diskann-benchmark/src/index/benchmarks.rs: full_precision_streaming", "diskann-benchmark/src/index/bftree/full_precision_streaming.rs: bftree_streaming"]}
{"id": "C98", "title": "The ground truth of a runbook is the nearest active tags at each search", "statement": "On a valid runbook that the data set covers, the tool that computes streaming ground truth runs to its end and writes one file per search stage; read back, the file names for every query the k nearest of the tags active at that stage, in order, with their distances, measured with the vectors the tags have at that stage. A search with fewer active tags than k is an error.", "quantifier": "every valid runbook, data set, query set, distance, k, and iteration order of the id map", "why_tests_cant": "The active tags and their vectors at a stage depend on the whole history of insertions, replacements and deletions; tests run one.", "anchors": ["diskann-tools/src/bin/compute_streaming_groundtruth.rs: GroundtruthStream, compute_groundtruth_results", "diskann-tools/src/utils/ground_truth.rs: write_ground_truth"]}
{"id": "C99", "title": "The in-memory provider is a table of records", "statement": "A provider made for some points and start points behaves as a table that gives every id a vector, its compressed code, a deletion flag and a list of neighbours. After any history of setting vectors, deleting, releasing, clearing deletions, setting and appending neighbours, every read gives what the table holds, for all ids; a call about one id never changes another. Vectors of the wrong dimension and unknown ids are refused without any change; a vector that cannot be compressed is refused and only the code of that id may change. Slots are aligned to cache lines, inside the allocation and disjoint. Saving an index with one start point and loading it gives back vectors, codes, lists and the start point.", "quantifier": "every history of calls, number of points and start points, dimension, degree, element size that divides 64, address of the allocations, quantizer and file format of elements", "why_tests_cant": "Padding depends on element size, dimension and the address the allocator returns; 32 ids share a word of deletion flags and lists keep stale cells behind their length, so an error shows only for particular sizes, ids and histories.", "anchors": ["diskann-providers/src/model/graph/provider/async_/inmem/provider.rs: DefaultProvider, new_empty, set_element, set_start_points, release, delete, save_with, load_with", "diskann-providers/src/model/graph/provider/async_/common.rs: AlignedMemoryVectorStore, StartPoints", "diskann-providers/src/model/graph/provider/async_/simple_neighbor_provider.rs: set_neighbors_sync, get_neighbors_sync, append_vector_sync", "diskann-providers/src/model/graph/provider/async_/table_delete_provider.rs: TableDeleteProviderAsync", "diskann-providers/src/model/graph/provider/async_/fast_memory_vector_provider.rs: set_vector_sync", "diskann-providers/src/model/graph/provider/async_/fast_memory_quant_vector_provider.rs: set_vector_sync"]}
{"id": "C100", "title": "Start points are what their strategy promises", "statement": "Choosing start points by a strategy returns exactly as many points as the strategy announces, each of the dimension of the data, or an error when the data is too small. The medoid is the first vector of the data closest to the mean of all vectors, and the matrix and the file versions agree; by sampling it is the first vector of the whole file closest to the mean of the vectors drawn. Random samples are vectors of the data at distinct positions. A latin hypercube takes, in every coordinate, one value from each of as many equal slices of the data as there are points. Random vectors have the requested norm; integer ones are that vector cut towards zero.", "quantifier": "all data sets, element types, sample counts, norms, and all outcomes of the random draws", "why_tests_cant": "tests fix a seed and small data; the claims range over every draw, every size relation between data and sample, values that are not finite, and files that lost their end", "anchors": ["diskann/src/graph/start_point.rs: StartPointStrategy::{count, compute}", "diskann-utils/src/sampling/medoid.rs: ComputeMedoid", "diskann-utils/src/sampling/latin_hypercube.rs: SampleLatinHyperCube", "diskann-utils/src/sampling/random.rs: WithApproximateNorm", "diskann-providers/src/utils/medoid.rs: find_medoid_from_file, find_medoid_with_sampling, find_nearest_vector_with_id"]}
{"id": "C101", "title": "A one-shot disk build inserts every row once and saves lists of the target degree", "statement": "When the graph of a disk index is built in one go by several tasks, and the build succeeds, the rows of the data file, as many as the index has points, have been inserted exactly once, each under its own number. At every moment, also after an error, what is inserted are rows under their own numbers, none twice. If no insertion fails the build succeeds. The final prune turns every list of a point and of the start point into its pruned version exactly once, or leaves it if short enough, the same whatever the schedule; then every list of the saved graph has at most the target degree. Build and prune end.", "quantifier": "all data files, numbers of points and tasks, interleavings of the tasks, insertions that fail, graphs before the prune and prune functions", "why_tests_cant": "tests run a few schedules on data whose size is the announced one; the claims range over every interleaving, every failing insertion and every size, up to the limit of 32-bit ids", "anchors": ["diskann-disk/src/build/builder/build.rs: build_inmem_index, run_build, run_final_prune, u32_try_from", "diskann/src/graph/index.rs: prune_range", "diskann/src/utils/async_tools.rs: PartitionIter"]}
{"id": "C102", "title": "Accepted configurations keep their bounds, and insertions retry as configured", "statement": "The builder of an index configuration accepts exactly the settings whose values, read as documented, lie within the bounds: all numbers positive and of 32 bits (16 for the candidates of a prune), the pruned degree at most the maximum degree, the back-edges at most the pruned degree; it returns these values, with the documented defaults. Later settings of the same field replace earlier ones, others commute. A slack of at least one and a ratio in (0, 1] are always accepted and give the exact product cut off or rounded up by less than one. An insertion with retries makes at most the configured number of attempts, doubles the window each time, stops as soon as enough neighbours are found, saturates only in the last attempt, and keeps lists distinct and within the maximum degree.", "quantifier": "all settings, in any order and number, all f32 factors including ones that are not finite, all graphs, search results and prune functions", "why_tests_cant": "tests pick a few values; the claims range over all of them, including products that f32 arithmetic rounds, and over every sequence of search results", "anchors": ["diskann/src/graph/config/mod.rs: Builder, Config::try_from_builder, MaxDegree, BackedgeSpec", "diskann/src/graph/config/experimental.rs: InsertRetry", "diskann/src/graph/config/defaults.rs", "diskann/src/graph/index.rs: insert"]}
{"id": "C103", "title": "Batched builds and searches of the benchmark library cover every item once, in its place", "statement": "A build with dynamic balancing hands out consecutive batches of the data, each to one task, whatever the number of tasks and however their steps and compare-exchanges interleave; a task's batches go upwards; if no batch fails the results cover every point once and the reported progress adds up to the number of points; with one task the batches come in order; the build fails exactly when a batch fails, and the tasks take a bounded number of steps. A build with fixed parts builds the points in order, in non-empty batches of at most the batch size, and returns outputs under the numbers of their tasks. A search with any number of tasks gives row i and output i to query i: the ids the query wrote, as many as asked for; aggregation concatenates parts of any kinds without a panic. A build with more tasks than points and no batch size hands out no empty range, every batch size is accepted, and a batch size of one makes a build sequential.", "quantifier": "every number of points, queries and tasks, every batch size, every schedule of the tasks, every outcome of every batch or query, every sequence of writes to the output buffers", "why_tests_cant": "Which task gets which batch depends on the schedule; tests see a few runs with few tasks and cannot cover all interleavings of loads and compare-exchanges, or batch sizes near the limits of the machine.", "anchors": ["diskann-benchmark-core/src/build/api.rs: build_tracked, build_inner_dynamic, ControlBlock::next, build_inner_fixed, Chunks, BuildResults::new", "diskann-benchmark-core/src/search/api.rs: search, search_inner, search_batch_fixed, search_batch_dynamic, Collector::collect", "diskann-benchmark-core/src/search/ids.rs: Bounded, IdAggregator", "diskann-benchmark-core/src/internal/buffer.rs: Buffer"]}
{"id": "C104", "title": "Diversity-aware search, from parameters to results", "statement": "A diversity-aware search accepts exactly positive counts with total_k \u2264 l. Accepted, on any finite graph, any attributes and any early stop, it ends without panicking, evaluates and expands each vertex at most once, and returns at most l distinct vertices in order of distance, each with its true distance, an attribute, not a start point, and reachable through vertices that have an attribute and a comparable distance. If no two such vertices tie, the results are the diverse_k closest of each attribute within the best selection of the evaluated vertices under the limits l and diverse_k*l/total_k; at most diverse_k results share an attribute; and if both limits hold everything reachable, the results are exactly the diverse_k closest reachable vertices of each attribute, start points dropped.", "quantifier": "all graphs, start points, attribute maps, distance functions (with NaN), parameters, beam widths, early stops and output buffers", "why_tests_cant": "The result is a fixed point of a graph walk in which the eviction rule of the list decides which vertices are expanded next; the claim ranges over all graphs, attribute maps and parameter triples.", "anchors": ["diskann/src/graph/search/diverse_search.rs: DiverseSearchParams::new, Diverse::new, Diverse::create_scratch, Search for Diverse", "diskann/src/graph/index.rs: search_internal", "diskann/src/neighbor/diverse_priority_queue.rs"]}
{"id": "C105", "title": "A disk index build respects its memory limit", "statement": "Building a disk index under a memory limit is done in one piece exactly if the estimated memory is below the limit, and otherwise in an odd number of at least three overlapping shards, the first such number for which the estimate of every shard is at most the limit; the search for this number ends, and the shards that are then written have estimates at most the limit and are not empty. A limit is accepted exactly if it rounds to at least one byte, a number of chunks exactly if it is between one and the dimension.", "quantifier": "all limits, quantizations, degrees and dimensions, all data sets, all samples and random draws of the clustering", "why_tests_cant": "The number of shards depends on the data, the sample and the random draws of k-means; whether the search ends is a property of an unbounded loop.", "anchors": ["diskann-disk/src/build/builder/core.rs: estimate_build_index_ram_usage, determine_build_strategy, partition_data", "diskann-disk/src/utils/partition.rs: find_partition_size, estimate_initial_partition_count, estimate_cluster_sizes", "diskann-disk/src/build/configuration/disk_index_build_parameter.rs: MemoryBudget::try_from_gb, NumPQChunks::new_with", "diskann-providers/src/utils/sampling.rs: gen_random_slice"]}
{"id": "C106", "title": "A Garnet vector set is a map from external ids to vectors and attributes", "statement": "After any history of insertions, removals, attribute updates and restarts, a Garnet vector set is a map: an id exists exactly if it was inserted and not removed since, its vector and attributes are those last set, searches can report exactly the elements of the map, each under one internal id, and the cardinality is their number. If storage calls fail part of the way through a call, the call reports the failure, nothing changes for other elements, and the element of the call is left as before or as asked.", "quantifier": "all histories of calls and restarts, all free ids handed out, all quantization states, every subset of storage calls failing at every point of every call", "why_tests_cant": "An element is spread over six records written one by one; which of them are left behind depends on the history and on where storage fails.", "anchors": ["diskann-garnet/src/provider.rs: set_element, delete, set_attributes, delete_attributes, vector_id_exists", "diskann-garnet/src/lib.rs: insert, remove, set_attribute, check_external_id_valid, card"]}
{"id": "C107", "title": "The first insertion into a Garnet vector set makes its start point, once", "statement": "When several threads insert into an empty Garnet vector set at the same time, exactly one of them makes the start point, no thread goes on before it is there, and no thread waits for ever; once set the start point never changes; if making it fails, the next insertion tries again.", "quantifier": "all numbers of threads, all interleavings, all points at which making the start point fails, all histories of insertions and restarts", "why_tests_cant": "The gate is a lock-free state machine; the bad schedules are those in which a thread looks between two steps of another.", "anchors": ["diskann-garnet/src/lib.rs: ensure_index_ready_or_init, create_index", "diskann-garnet/src/provider.rs: maybe_set_start_point, new"]}
{"id": "C108", "title": "Results of a Garnet vector set fit the buffers of the caller and can be read back", "statement": "Whatever a search, a listing of neighbours or a draw of random members writes into the buffers of the caller, it never writes beyond them; it is the longest prefix of the results that fits, and the caller can read back exactly these ids and distances. Search results leave out the start point and removed elements; in a quantized search they carry the distances of the stored vectors and are sorted by them. A draw of random members ends, never returns an element twice, and returns as many as asked for if there are as many; the neighbours of an element are listed without the start point and without removed elements.", "quantifier": "all buffer sizes, all ids of any length, all candidates, all subsets of removed elements, all random samples", "why_tests_cant": "Lengths of ids, buffer sizes and holes in the id space combine freely, and the draw is random.", "anchors": ["diskann-garnet/src/lib.rs: SearchResults, random_members, search_neighbors", "diskann-garnet/src/provider.rs: random_members, neighbors, CopyExternalIds, Rerank", "diskann/src/graph/glue.rs: FilterStartPoints"]}
{"id": "C109", "title": "A Garnet vector set becomes quantized without losing a vector", "statement": "After the quantizer of a vector set was trained and Garnet ran the backfill tasks, the set works with quantized codes, and then every stored vector, and the start point, has the code of its own content; this holds however the tasks interleave with each other, with insertions and with removals, and it stays so over all further calls, reused ids and restarts. The tasks share the ids without gap or overlap, ids are not reused before every vector has its code, surplus tasks and tasks before the training do nothing. If the training or a task fails or the process restarts meanwhile, it can be tried again.", "quantifier": "all vectors and quantizers, all numbers of tasks, all interleavings of tasks, insertions and removals, all restarts, all failures of storage calls", "why_tests_cant": "The backfill runs in several threads against insertions and removals; restarts may come at any point.", "anchors": ["diskann-garnet/src/provider.rs: train_quantizer, backfill_quant_vectors, new, quantization_needed, set_element, delete", "diskann-garnet/src/fsm.rs: enable_quantization, enable_reuse, max_id_for_backfill", "diskann-garnet/src/lib.rs: build_quant_table, backfill_quant_vectors"]}
{"id": "C110", "title": "Reading an index from disk fills the buffers with the bytes of the file", "statement": "When a call that reads a list of requests from an index file succeeds, every buffer holds exactly the bytes of the file it was asked for, no other memory was touched, and nothing is still being written; this holds for any number of requests, whatever order the system completes them in, and also for the calls after a failed one. A call that cannot deliver all bytes fails with the error of the system. Requests for sectors meet the alignment the system asks for.", "quantifier": "all files, all lists of requests, all orders of completion, all failed and short reads, all signals, all sequences of calls", "why_tests_cant": "The order of completions, failures and signals are up to the operating system.", "anchors": ["diskann-disk/src/search/provider/aligned_file_reader/reader/linux.rs: LinuxAlignedFileReader::read, submit_aligned_read", "diskann-disk/src/search/provider/aligned_file_reader/reader/storage_provider.rs: StorageProviderAlignedFileReader::read", "diskann-disk/src/search/provider/aligned_file_reader/aligned_read.rs: AlignedRead::new", "diskann-disk/src/search/provider/disk_sector_graph.rs: read_graph"]}
{"id": "C111", "title": "Memory from the allocators is aligned, inside its buffer and not shared; values are dropped once", "statement": "A bump allocator that is shared between threads hands out memory that is aligned as asked, lies inside its buffer and is never handed out twice; what was handed out stays valid, and a request fails only if there is no room for it. An owning pointer drops each value that was put into it exactly once and gives its memory back exactly once, also if the allocator is out of room, a constructor fails or an iterator panics.", "quantifier": "all base addresses, capacities, sizes and alignments, all interleavings of calls from any number of threads; all sizes and numbers of values, all points of failure", "why_tests_cant": "Threads race for the head of the buffer, and addresses, sizes and alignments combine freely.", "anchors": ["diskann-quantization/src/alloc/bump.rs: BumpAllocator::allocate, next", "diskann-quantization/src/num.rs: PowerOfTwo::arg_mod, arg_align_offset, arg_checked_next_multiple_of", "diskann-quantization/src/alloc/poly.rs: Poly::new, new_with, new_uninit, from_iter, drop"]}
{"id": "C112", "title": "Regression checks compare what they say, with the tolerance that applies", "statement": "In the benchmark runner, `check verify` accepts a tolerance file for an input file exactly when it should: each input has exactly one tolerance entry that applies to it (same tag, and the entry's partial input is a structural subset of the actual JSON: every path of it exists there with an equal scalar, arrays by prefix), each entry applies to some input, and every check pairs the input at its position with that entry and with the best-scoring benchmark registered for the tolerance; a refusal names exactly the orphaned entries, the uncovered and the ambiguous inputs, and no file can make the tool panic. `check run` succeeds exactly if both result files have one entry per input and every check passes on the results at its position; the report and the output file hold the outcome of every check at its position. `run` executes the matching benchmark with the smallest score, the first registered among equals, never a gated one. The results compared should belong to the checked input and benchmark, and the output file should be written whatever the outcome.", "quantifier": "all registries built by any sequence of registrations, all JSON values of any depth, all tolerance and input files, all pairs of result files, all scores and sequences of penalties, all user-supplied match and check functions", "why_tests_cant": "The structural subset is defined over JSON values of unbounded depth and is computed with an explicit stack; the matching is a relation between two files of any size, and the choice of benchmark depends on every registered benchmark.", "anchors": ["diskann-benchmark-runner/src/internal/regression.rs: is_subset, check_matches, Checks::{new,jobs,match_all}, Raw::parse, Jobs::run", "diskann-benchmark-runner/src/registry.rs: Registry::{register,register_gated,tolerances,call}, find_best_match", "diskann-benchmark-runner/src/benchmark.rs: Score, MatchContext, Regression::check", "diskann-benchmark-runner/src/jobs.rs: Jobs::parse"]}
{"id": "C113", "title": "Results of the benchmark runner survive interrupts", "statement": "At every moment of any sequence of runs with one output file, each of which may be killed anywhere and may meet any error of the file system, the output file is as before the first run or is one whole document of one run, in which inputs and results are paired in order; a benchmark starts only when all earlier results are saved, so at most the last result is lost; a run that ends without an error leaves exactly its document. If nothing is killed in a save and the file system reports no errors, no save fails. Refuted: a run killed in a save leaves a temporary file that makes every later run execute its first job and then fail; two saves at the same time can both pass the test for the temporary file and leave an output file that is neither document, although a save returned without an error.", "quantifier": "all inputs and results, all ways to serialize documents, all sequences of partial results, all splits of a document into writes, all errors of the file system, all points at which a run is killed, all sequences of runs", "why_tests_cant": "the claim is about every point between two steps at which a process can be killed and every interleaving of two saves; a test kills at a few points, if any", "anchors": ["diskann-benchmark-runner/src/result.rs: Checkpoint::{new,save,checkpoint}, atomic_save, CheckpointInner, Appended", "diskann-benchmark-runner/src/app.rs: Commands::Run"]}
{"id": "C114", "title": "Beam expansion in a Garnet vector set reports every new neighbor once, with the right decision", "statement": "When a search of a Garnet vector set expands nodes, every neighbor that was not visited and has a vector is reported exactly once, with the distance of its own vector (the start point comes from a cache), nothing else is reported, and exactly the neighbors become visited. A filtered expansion reports the same ids and distances in the same order, and an id is accepted exactly if it is not the start point and the filter accepts its attributes, where missing attributes count as empty ones. The accept-only expansion reports exactly the accepted part, in the same order, marks only accepted ids as visited and never fails. No expansion panics; a plain or filtered one fails exactly if it comes to a start point that is not cached. Fetching vectors for pruning gives every id the vector kept from before or its own.", "quantifier": "all graphs, attributes, filters, vectors, distances and states of the store at the time of the call; all beams, all sets of visited ids; for agreement and decisions all stateful predicates", "why_tests_cant": "ids, decisions and vectors are matched by positions in flat buffers that are compacted in place, with missing entries skipped by callbacks; every combination of missing vectors, missing attributes, repeated ids and the start point has to keep the positions aligned", "anchors": ["diskann-garnet/src/provider.rs: DynamicAccessor::{start_point_distance,compute_filter_decisions,expand_beam,expand_beam_filtered,expand_beam_accept_only}, PruneAccessor::fill, GarnetProvider::get_neighbors", "diskann-garnet/src/garnet.rs: read_multi_lpiid, matches_filter", "diskann/src/graph/glue.rs: FilteredAccessor, NotInMut"]}
{"id": "C115", "title": "Insertions and removals of a Garnet vector set that run at the same time do not harm other elements", "statement": "An element whose insertion answered true and that nobody removes exists, its id carries its vector and its name, and the removal of another element neither drops its list of neighbors nor the edges that lead to it, however insertions and removals overlap. The code guarantees this only while no insertion gets an id that a running removal has looked up, in particular while ids are not reused, and even then an edge added while another call rewrites the same list can be lost.", "quantifier": "all interleavings, storage call by storage call, of any number of insertions and removals of any elements, all graphs and all choices of searches and prunings", "why_tests_cant": "the id of a removed element is free before its graph repair has ended, and ids are looked up several times during a removal; the harm appears only in particular interleavings of three calls", "anchors": ["diskann-garnet/src/lib.rs: remove", "diskann-garnet/src/provider.rs: SetElement::set_element, Delete::delete, set_neighbors, append_vector", "diskann-garnet/src/fsm.rs: next_id, mark_free", "diskann/src/graph/index.rs: DiskANNIndex::{insert,inplace_delete,inplace_delete_inner,add_edge_and_prune,drop_adj_list}"]}
{"id": "C116", "title": "Failing store calls do not corrupt the inverted label index", "statement": "If a call of the key-value store fails, or the process stops, in the middle of an insertion, a deletion or an update of the labels of a document, queries find every other document exactly as before, and after the operation is tried again until it succeeds the index answers as if nothing had failed; in between, the document is found only where its old or its new labels allow it. A document whose insertion failed can be deleted, and a failed update leaves the document findable (the code does not guarantee either).", "quantifier": "all histories of insertions, deletions and updates, every store call of every attempt as the failing one, any number of failing attempts, all stores that refuse some records, all filters the index evaluates", "why_tests_cant": "an operation makes two store calls per label, and what is left depends on which call fails and on every failure before; tests use stores that never fail", "anchors": ["diskann-label-filter/src/kv_index/inverted_index_provider_impl.rs: insert, delete, update", "diskann-label-filter/src/kv_index/generic_index.rs: get_or_empty_posting_list", "diskann-label-filter/src/stores/bftree_store.rs: BfTreeStore::{get,set,del}"]}
{"id": "C117", "title": "The vectors of a bf-tree provider are whole under overlapping calls", "statement": "However stores, deletions and searches of a bf-tree provider overlap, a vector whose store answered Ok is in the full-precision store together with its code until another call on its id starts; a vector whose deletion answered is in neither and no search reports it; only vectors that were stored under an id can be read under it; no code stays behind without its vector; searches skip missing vectors, report each new neighbour once, and reranking returns exactly the candidates still present with exact distances, nearest first. A store that answers with an error leaves vector and code consistent, and deletions cannot break the start points (the code guarantees neither).", "quantifier": "all interleavings of any number of stores, deletions and reads, all assignments of ids to locks, all points at which a tree refuses a record or a vector cannot be compressed, all graphs, beams and candidates", "why_tests_cant": "a store is two writes under a lock shared with other ids while searches read without locks; the number of interleavings and failures is unbounded, and tests run few of them", "anchors": ["diskann-bftree/src/provider.rs: SetElement::set_element, Delete::delete, SearchAccessor::{start_point_distances,expand_beam}, Rerank::post_process", "diskann-bftree/src/vectors.rs: VectorProvider::{set_vector_sync,get_vector_into,delete_vector}", "diskann-bftree/src/quant.rs: QuantVectorProvider::set_vector_sync", "diskann-bftree/src/locks.rs: StripedLocks"]}
{"id": "C118", "title": "A saved bf-tree provider loads as it was saved", "statement": "A bf-tree provider on which no call runs while it is saved loads, with the same types, with the same parameters, vectors, neighbours, codes and quantizer, whatever files were there before; a provider with quantization also loads without it; another id width or a missing quantizer is an error; a save under one prefix, also one that fails or is cut off, leaves indexes under other prefixes alone; under a new prefix a save that is cut off at any point cannot be loaded. A save over an existing index is all or nothing, a failed save leaves the saved index alone, a copy of the files is a copy of the index, indexes in two storages are separate, and an index is not loaded with another element type (the code guarantees none of these).", "quantifier": "all parameters and contents of providers, all prefixes and storages, all files present before, every point of a crash, all moments at which the parts are taken while calls run", "why_tests_cant": "tests save one provider under a fresh prefix and load it; crashes between and inside files, and files of earlier saves and other storages, are not exercised", "anchors": ["diskann-bftree/src/provider.rs: SaveWith::save_with, LoadWith::load_with, save_bftree, load_bftree, validate_loaded_id_params, BfTreePaths", "diskann-bftree/src/id.rs: validate_id_capacity", "diskann-vector/src/distance/metric.rs: Metric::{as_str,from_str}"]}
{"id": "C119", "title": "The vectorized membership test is membership", "statement": "Searching a value in a slice of 32-bit or 64-bit ids with SIMD instructions answers whether the value is in the slice, for every slice and every value, reads nothing outside the slice and ends. Adjacency lists rely on it to hold no edge twice.", "quantifier": "all slices of any length, all values", "why_tests_cant": "the slice is taken apart in pieces of 32, 16, 8, 4 and 2 through raw pointers; tests fix lengths up to 128 and ascending contents, and cannot notice a read past the end", "anchors": ["diskann-vector/src/contains/x86_64.rs: contains_simd_u32, contains_simd_u64", "diskann-vector/src/contains/mod.rs: ContainsSimd"]}
{"id": "C120", "title": "Biased searches prefer matching vectors and change nothing else", "statement": "A search with a bias filter and factor beta behaves as the unfiltered search with the distances of matching ids multiplied by beta: the ids it may return, the graph it walks and the start points stay the same; a factor of one changes nothing; every result comes with the distance it was ranked by; with non-negative distances and a factor of at most one a matching vector is never moved behind, and a smaller factor never moves it back. Stopping early and refusing useless factors should work as without the filter.", "quantifier": "all accessors and graphs, all label predicates, all factors, all distances in an ordered type with a scaling that is monotone (exact or rounded)", "why_tests_cant": "tests use one squared-distance index and one factor; negative distances (inner products), accessors that stop early and factors that are not numbers are never tried", "anchors": ["diskann-providers/src/model/graph/provider/layers/betafilter.rs: BetaFilter, BetaAccessor, Filter::apply", "diskann/src/graph/glue.rs: SearchAccessor::terminate_early", "diskann-benchmark/src/inputs/graph_index.rs: BetaSearchPhase::validate"]}
{"id": "C121", "title": "Searches of the in-memory provider while vectors are inserted and deleted", "statement": "A search that runs while other calls insert and delete vectors returns its candidates in the order of their rank, each under the id of an element that was in the index while results were collected, with the distance to the vector stored for that id at that time; no id twice; no start point; no element that was deleted before. A candidate is left out only because its element was deleted during the search or the output is full. Searches do not block for ever. Expanding a beam reports each new readable neighbour once. The reported number of results is the number written, and an element keeps its edges unless it is deleted itself.", "quantifier": "all interleavings of any number of insertions, deletions and searches, all capacities, output sizes, reads and rankings; all adjacency lists, lookaheads and read failures for the expansion", "why_tests_cant": "it depends on when slots are retired, reclaimed and taken again relative to the reads and the translation of each candidate; the tests search a quiet index, and none fills the output and looks at the count", "anchors": ["diskann-inmem/src/provider.rs: SearchAccessor::expand_beam, expand_beam_inner, Translate::post_process, set_element, delete", "diskann-inmem/src/ids.rs: IdMap::to_external", "diskann/src/graph/search_output_buffer.rs: IdDistance::push", "diskann/src/graph/index.rs: inplace_delete, insert"]}
{"id": "C122", "title": "SIMD lanes and masks compute the scalar operations", "statement": "On AVX2 every comparison, selection, byte multiplication, NaN-aware minimum and maximum, variable shift, interleaving, horizontal sum and byte dot product of the SIMD layer gives on each lane what the scalar operation gives, masks convert to bit masks and back without losing or gaining a lane, keeping the first i lanes keeps exactly those for every i, and reading a mask (lane, any, all, first, count, split, join) agrees with its lanes. Horizontal sums add in the order of the scalar reference.", "quantifier": "all register contents, all lanes, all bit masks, all counts, any addition including rounding ones", "why_tests_cant": "the instructions have no unsigned comparison, no byte product and no cross-half shuffle, so each operation is a trick over shuffles and saturation that must be right for all 2^256 register values; tests sample values and run only where the processor has the instructions", "anchors": ["diskann-wide/src/arch/x86_64/v3/masks.rs", "diskann-wide/src/arch/x86_64/v3/{u8x16_,i8x16_,u8x32_,i32x8_,u32x4_,f32x8_,u64x4_}.rs", "diskann-wide/src/arch/x86_64/macros.rs: x86_zipunzip", "diskann-wide/src/traits.rs: SIMDMask, impl_simd_mask_for_bitmask", "diskann-wide/src/bitmask.rs: splitjoin", "diskann-wide/src/doubled.rs", "diskann-wide/src/reference.rs: TreeReduce, ReferenceIntegerOps"]}
{"id": "C123", "title": "A stored quantization type is read back as it was", "statement": "The name under which the disk build configuration stores its quantization type is read back as the same type, for every number of chunks or bits and every deviation; two different types have different names; a name is accepted exactly when it is one of the documented forms, whatever its letter case and the white space around it; and an accepted type always has at least one chunk and a positive deviation. (The code violates the first part for scalar quantization with the default deviation.)", "quantifier": "all quantization types, all texts, any Unicode case and white space tables agreeing with ASCII, any number format that reads back what it prints", "why_tests_cant": "the round trip is over unboundedly many sizes and deviations, and acceptance over all strings; the tests name a few of each and leave out the one variant that cannot be read back", "anchors": ["diskann-disk/src/build/configuration/quantization_types.rs: QuantizationType, FromStr, Display, Serialize, Deserialize", "diskann-quantization/src/num.rs: Positive::new"]}
{"id": "C124", "title": "Latency summaries and the regression check mean what they say", "statement": "For every non-empty list of latencies the summary exists, does not depend on their order, its minimum is the smallest, its median has half the samples on each side, its 90th (99th) percentile is the sample with more than 90% (99%) of the samples at most it and at most that share below it, and the mean is the arithmetic mean. A relative change is reported exactly for a positive value before and a non-negative value after, with the sign of the difference. The SIMD regression check passes exactly when the same runs are compared and no run's smallest latency grew by more than the tolerance; results compared with themselves pass. (The code violates the mean when the sum overflows and the last part for runs faster than a microsecond.)", "quantifier": "all lists of latencies, all floating point values up to rounding, all lists of runs and tolerances", "why_tests_cant": "index arithmetic on percentiles depends on the length and must stay in bounds and at the right rank for every length; the tests try lengths up to a few", "anchors": ["diskann-benchmark-runner/src/utils/percentiles.rs", "diskann-benchmark-runner/src/utils/microseconds.rs", "diskann-benchmark-runner/src/utils/num.rs: relative_change, NonNegativeFinite", "diskann-benchmark-simd/src/lib.rs: Regression::check"]}
{"id": "C125", "title": "A compressed vector viewed in a byte slice stays inside it and shows what was written", "statement": "A byte slice is accepted as a compressed vector of a given dimension (metadata in front, or behind) exactly when its length is the documented one, by the shared and by the mutable constructors alike; then the metadata and the codes are disjoint, cover the slice, and every code can be read without leaving it. Whatever metadata and codes are written through a mutable view is what a shared view of the same bytes shows. A slice of plain elements with metadata is accepted exactly when it is aligned for both types and of the documented length; both parts are then aligned, disjoint and inside. Arbitrary bytes offered as a MinMax vector are either refused or give a vector of exactly the declared dimension inside them; a written one is read back; decompressing needs a destination of that dimension. (In builds without overflow checks the code violates the first and third part for dimensions whose size does not fit a machine word, and the documentation of the MinMax length check.)", "quantifier": "all byte slices, addresses, dimensions, code widths 1 to 8, metadata sizes, element types and histories of writes", "why_tests_cant": "memory safety of the unsafe views must hold for every slice and dimension a caller passes, including sizes no test can allocate", "anchors": ["diskann-quantization/src/meta/vector.rs: from_canonical_front, from_canonical_back, from_canonical_front_mut, from_canonical_back_mut, canonical_bytes", "diskann-quantization/src/meta/slice.rs: from_canonical, from_canonical_mut, canonical_align, canonical_bytes", "diskann-quantization/src/bits/slice.rs: Dense::bytes, BitSliceBase::new", "diskann-quantization/src/minmax/vectors.rs: MinMaxCompensation::read_dimension", "diskann-providers/src/common/minmax_repr.rs: from_raw, full_dimension, as_f32_into"]}
{"id": "C126", "title": "The spherical quantizer behind its type-erased interface: supported query forms, buffers, fused and separate queries agree", "statement": "For each of the widths 1, 2, 4 and 8: is_supported, query_buffer_description, query_computer, compress_query and fused_query_computer agree on which query forms exist (an unsupported form is refused by all of them whatever the other arguments; a supported one never); computers report the form asked for; a query buffer is refused, on writing and on reading, exactly when it does not have the described size and alignment, a data buffer exactly when its length is not bytes(); compressing a query into a described buffer and evaluating it gives the same errors and the same distance to every data vector as the fused computer; allow_rescale only matters for the inner product, where it scales the query to the mean norm; a query written in one form is refused by the computer of another; a serialized quantizer is read back with its width, and other widths are refused.", "quantifier": "all four widths, dimensions, metrics, query vectors, buffers (address, length, old contents), data vectors, files", "why_tests_cant": "The tests try a few dimensions and aligned buffers; the agreement of five separate match tables, independence from the old contents of the buffer, and the impossibility of confusing two forms quantify over all dimensions, vectors and buffers.", "anchors": ["diskann-quantization/src/spherical/iface.rs: Quantizer, Impl, QueryLayout, query_computer, compress_query, fused_query_computer, query_buffer_description, try_deserialize", "diskann-quantization/src/spherical/quantizer.rs: rescale"]}
{"id": "C127", "title": "The random data generator writes the rows asked for, with the norm asked for, and a metadata header that matches", "statement": "write_random_data succeeds exactly when the radius is allowed for the type, both dimensions fit in 32 bits and no block of 131072 rows is all zero; then the file has a header with the number of rows and the dimension, and that many rows of that length. Every row of floats has the norm asked for; rows of signed bytes are such a row rounded to the nearest integers (ties away from zero), unsigned bytes the same shifted by 128. Byte types refuse a radius outside (0, 127]; the program refuses one that is not positive. Failures leave no file, an empty file, or rows of zeros.", "quantifier": "all types, dimensions, numbers of rows, radii (NaN included) and random generators", "why_tests_cant": "Tests write a few small files; the boundary between blocks is at row 131072, and norm, rounding and failure quantify over all radii and generators.", "anchors": ["diskann-tools/src/utils/random_data_generator.rs: write_random_data, write_random_data_writer, write_random_vector_block", "diskann-utils/src/sampling/random.rs: with_approximate_norm, WithApproximateNorm", "diskann-tools/src/bin/random_data_generator.rs: main"]}
{"id": "C128", "title": "Generated label files have one valid line for every point; label queries are matched as and-of-ors", "statement": "generate_labels with the random or Zipf distribution writes one line for every point, each with distinct labels from 1 to the number of labels separated by commas, or 0 when the point got none; with the Zipf distribution label j is used on at most 0.7 n / j lines, and on every line for which it is drawn until then, whatever the order of the hash map; with one label per point every line is one label below the number of labels. A call that succeeds has written a line for every point. A query a|b&c matches base labels x,y,z exactly when every part separated by & has an alternative among the base labels, white space around labels aside.", "quantifier": "all numbers of points and labels, random outcomes, hash map orders, labels and queries", "why_tests_cant": "Tests generate one file with a fixed seed and try a few queries; the form of every line and the bound on uses must hold for all outcomes and hash orders, matching for all label sets.", "anchors": ["diskann-tools/src/utils/generate_synthetic_labels_utils.rs: generate_labels, ZipfDistribution", "diskann-tools/src/utils/multi_label.rs: MultiLabel, from_base, from_query, is_subset_of"]}
{"id": "C129", "title": "The common error type keeps everything put into it: types, values, contexts and locations", "statement": "For an ANNError made from an error or a message and any contexts added to it: is::<T>() holds exactly when the origin or a context is a T; downcast, downcast_ref and downcast_mut find the newest T, agree with each other and with is, and a downcast in vain returns the same error; the original error is retrieved; writing through downcast_mut changes that value only; the displayed text has every context, newest first, then the origin, each with the location of its caller, then the sources of an error (none for a message). context and with_context touch failures only; the closure runs only for them.", "quantifier": "all origins, sequences of contexts, types, values, locations and writes", "why_tests_cant": "Tests use one or two contexts; retrieval and display must hold for chains of any length with any repetition of types.", "anchors": ["diskann/src/error/ann_error.rs: ANNError, new, message, is, downcast, downcast_ref, downcast_mut, context, Located, ErrorContext"]}
{"id": "C130", "title": "Relative contrast is the mean ratio it names; subsampling writes a vector file of exactly the rows drawn", "statement": "compute_relative_contrast returns the mean over the queries of the mean squared distance to the sampled points over the mean squared distance to the first recall_at true neighbours; it panics exactly for a query with nothing to sample from, no row of ground truth, or a neighbour that is no base point. subsample_bin accepts exactly probabilities from 0 to 1, and writes a vector file with the rows whose draw is below the probability, in order, with a header that has their number; probability 1 copies the file, 0 leaves no row; a truncated input is refused.", "quantifier": "all data sets, queries, ground truths, draws, probabilities (NaN included) and files", "why_tests_cant": "Tests compare one random data set with a loose bound, and there are none for subsampling; the value and the panics quantify over all files and draws.", "anchors": ["diskann-tools/src/utils/relative_contrast.rs: compute_relative_contrast, average_squared_distance, squared_distance", "diskann-tools/src/bin/subsample_bin.rs: run_for_type"]}
{"id": "C131", "title": "A file with several vectors for every point is read back exactly, or refused with the right error", "statement": "load_multivec_bin of a file made of points (header, number of vectors of each point, vectors) returns these points, their number, the dimension and the number of vectors. Whatever it accepts is such a file for the points returned: each has at least one vector, every vector has the announced dimension, the numbers of the header are theirs; only bytes after the last vector are ignored. A file cut short anywhere is refused. A length of zero is refused before a sum that does not match, and that before missing vectors.", "quantifier": "all files (byte sequences), element sizes, dimensions, points and cut positions", "why_tests_cant": "Tests read three well-formed files and two bad ones; acceptance and refusal quantify over all byte sequences and every truncation.", "anchors": ["diskann-providers/src/utils/file_util.rs: load_multivec_bin"]}
{"id": "C132", "title": "A provider with one or two product quantization schemas keeps the last vector of every id and measures it in its own schema", "statement": "After any calls of set_vector, get_vector of an id in range returns a best code of the vector last stored under it (no code of that schema stands for a closer one) with the version of its schema, or the empty code of version 0 if nothing was stored; ids out of range are refused. A store touches its id only, takes the old schema exactly if there is one and the random number is at most the split (a NaN split: never), and takes a random number only with two schemas. A wrong id, a wrong length or a float that is not finite is refused with its error and changes no code. Query computer and distance computer return the distance to, or between, the vectors that the codes stand for, each in the schema of its version, and infinity for an unknown version.", "quantifier": "all schemas of one dimension, splits, random numbers, histories of calls, queries and codes", "why_tests_cant": "Tests store five vectors with one seed; the choice of schemas, histories and mixed distances range over all draws and calls.", "anchors": ["diskann-providers/src/model/graph/provider/async_/experimental/multi_pq_async.rs: TestMultiPQProviderAsync, set_vector, get_vector, get_query_computer, get_distance_computer, NoneToInfinity"]}
{"id": "C133", "title": "Benchmark jobs get the input files their paths name and output directories of their own", "statement": "find_input_file and find_input_dir return an absolute path as it is exactly if it exists with the right kind, and for a relative path the first search directory, in order, in which it does; nothing else. Registered outputs are all different as paths: a job gets the directory its save path stands for (the output directory, an existing absolute directory, or an existing directory in the output directory) exactly if no job before it has it, dots and repeated separators notwithstanding; a refused job changes nothing.", "quantifier": "all file systems, search directories, output directories, paths (character sequences) and sequences of jobs", "why_tests_cant": "Tests use one small directory tree and no registration at all; the order of search and the difference of outputs range over all trees, spellings and sequences.", "anchors": ["diskann-benchmark-runner/src/checker.rs: Checker, register_output, find_input_file, find_input_dir", "diskann-benchmark-runner/src/files.rs: InputFile::resolve"]}
{"id": "C134", "title": "Label, query and ground-truth files in JSON lines are read whole, in order, or refused at the first bad line", "statement": "A file of lines without newlines, ended in the Unix or Windows manner with or without a last end, is read as exactly those lines. read_baselabels and read_queries return the values of all lines in order exactly if every line is UTF-8 and parses; otherwise the error names the first bad line, counted from 1. A blank line is an error unless the parser takes it. read_ground_truth returns the first line's metadata and the values of the rest, and its errors name the first bad part. read_and_parse_queries returns the queries with their filters in order or the error of the first query whose filter does not parse.", "quantifier": "all files (byte sequences), all line parsers, all filter parsers and all notions of UTF-8", "why_tests_cant": "Tests read a few fixed files; order, completeness and the number in the error range over all contents and positions.", "anchors": ["diskann-label-filter/src/utils/jsonl_reader.rs: read_baselabels, read_queries, read_ground_truth, read_and_parse_queries"]}
{"id": "C135", "title": "Exhaustive search returns the nearest stored vectors of every query, whatever the threads do", "statement": "The exhaustive search of the benchmark over quantized vectors gives every query a row of exactly the number of ids asked for: the nearest stored vectors by the quantized distance, nearest first, no id twice, vectors at a distance that is not a number left out, and u32::MAX after the last. The rows do not depend on the order in which threads take the queries. If a query cannot be prepared the search fails with the error of such a query. The recall values given are accepted exactly if some k is at most some n; then a recall is computed for exactly the pairs with k at most n, each once, and the search is asked for enough results for all of them.", "quantifier": "all stores, distances (NaN included), queries, numbers of results, orders of the threads, and all lists of recall values", "why_tests_cant": "Tests run one small data set with one pool; ties, NaN, stores smaller than the number of results, failing queries and thread orders are unbounded.", "anchors": ["diskann-benchmark/src/exhaustive/algos.rs: linear_search", "diskann-benchmark/src/inputs/exhaustive.rs: SearchValues::validate", "diskann-benchmark/src/utils/recall.rs: compute_multiple_recalls"]}
{"id": "C136", "title": "The timing tree of a disk index benchmark shows every span once, below its parent", "statement": "Spans are collected in the order of their export. If their ids are different and not zero and every span is a root or has its parent among them, the tree ends up with every span exactly once, each below its parent and nowhere else, roots and the children of a span in the order of their export. The metrics of a span have, for every attribute, its last value, and the duration from start to end unless an attribute has the name of the duration.", "quantifier": "all batches of spans, forests of any shape and depth, names, times and attributes", "why_tests_cant": "Tests build one nested example; shapes, depths, export orders and attribute lists are unbounded.", "anchors": ["diskann-benchmark/src/disk_index/json_spancollector.rs: JsonSpanCollector::to_hierarchical_json, build_span_tree, export"]}
{"id": "C137", "title": "The specificity tool prints for each filter the share of documents that satisfy it, and right statistics", "statement": "The tool writes one value for each query, in the order of the queries: the number of documents that satisfy its filter over the number of documents, between zero and one. The minimum, maximum, average and median printed are those of the values written; the median is the middle value, or the mean of the two in the middle. Without documents, or if the bitmaps cannot be computed, it exits with an error; without queries it prints no statistics.", "quantifier": "all collections of labelled documents with different ids, all lists of queries and filters, all lists of values", "why_tests_cant": "The tool has no tests; documents, filters and the number and order of the queries are unbounded.", "anchors": ["diskann-tools/src/bin/compute_specificities.rs: main", "diskann-tools/src/utils/compute_bitmap.rs: compute_query_bitmaps"]}
