# DESIGN

Formal model of microsoft/DiskANN (Rust workspace in `/repo`) in Lean 4.33.0 with Mathlib.

## Layout

* `properties.jsonl` – the properties (C01 ...).
* `lean/Verif/<Area>/Model.lean` – executable (total, computable) transcription of the Rust
  functions. Every definition cites the file and lines it models and says what was simplified.
* `lean/Verif/<Area>/Spec.lean` – the small specification vocabulary used in theorem statements
  (only where a property needs words beyond Lean core / Mathlib).
* `lean/Verif/<Area>/Lemmas.lean` – helper lemmas.
* `lean/Verif/<Area>/Props.lean` – the property theorems, named `C<nn>_...`, each followed by
  `example`s showing that concrete non-trivial data meets the hypotheses.
* `MANIFEST.json` – property → theorem names and status.
* `seeded/LOG.jsonl` – mutation log: realistic bugs seeded in a scratch copy of the model and the
  theorems that caught them.

## Trusted base

* Lean's kernel; axioms `propext`, `Classical.choice`, `Quot.sound` only (no project axioms, no
  `sorry`, no `native_decide`/`bv_decide`).
* The correspondence between the Rust text and the Lean definitions (by reading; the sandbox cannot
  build the Rust code). Citations are attached to each definition.
* Modelling conventions, stated once here:
  * `usize`/`u32`/`u64` quantities are `Nat` unless overflow or wrap-around is part of the property
    (then `BitVec`/explicit bounds). Where a Rust operation would panic (index out of bounds,
    subtraction underflow in a debug build, `expect`) the model has an explicit error result or the
    theorem carries the bound as a hypothesis that is shown to be met by reachable states.
  * `f32`/`f64` distances: an arbitrary linear order (`α` with `LinearOrder`) or `Int`/`Rat`,
    with NaN represented by `none` where NaN handling is part of the property. IEEE rounding is
    not modelled; theorems about order only (sorting, thresholds) do not depend on rounding.
  * Concurrency: sequentially consistent interleavings of the atomic steps of the code. Weak-memory
    reordering below SC is not modelled (the code uses SeqCst fences / acquire-release at the points
    the SC argument needs; that this suffices is trusted).
  * Storage: a file system is a finite map from names to contents with atomic create-new, write,
    rename, remove. A crash stops the program between two such steps (process crash; loss of
    un-fsynced data after power failure is not modelled).
  * Hash maps/sets are modelled as association lists / lists with set semantics; iteration order of
    hash maps is universally quantified where it is observable.

## Properties: what is modelled and how it is proved

| id | model | proof |
|----|-------|-------|
| C01 | `Queue`: struct with sorted array, size, capacity, cursor; `insert` transcribed (NaN test, full test, lower bound search, shift) | fold of inserts = `take L` of insertion sort of the reversed non-NaN input; induction |
| C02 | same, plus `closestNotvisited`, `truncate`, `reconfigure`, `clear` | invariant (sorted, all before the cursor visited, cursor ≤ size) by induction over operation lists |
| C03 | `remove` | code disagrees for ties: negation with witness, partial theorem for distinct distances |
| C04 | `drain_best` | list lemma + sortedness |
| C05 | `AdjacencyList` operations | `Nodup` invariant over operation lists, refinement to "append if absent" |
| C06 | `BackedgeBuffer` inline/spilled | refinement to first-seen-distinct list |
| C07 | `robust_prune` with fuel-free loops (structural / well-founded recursion), `occlude_list` | invariants over the scan; Nodup, subset, length |
| C08 | same | invariant relating `occlude_factor`, `last_checked` and chosen list |
| C09 | adjacency-update operations on a graph map | induction over operation lists |
| C10 | `add_edge_and_prune` with explicit scratch buffer and transient failure | exact result theorem + negation with witness for the stale-scratch case |
| C11, C12 | `consolidate_vector`, `drop_deleted_neighbors` | direct |
| C13–C16 | greedy search loop over a finite graph, visited set, queue; BFS count | loop invariants, well-founded on unvisited vertices + unexpanded entries |
| C17 | range search second phase | loop invariant |
| C18 | output buffers | invariant over histories |
| C19–C21 | transition system of EBR registry + tags + free list, any number of threads | inductive invariant over all reachable states |
| C22, C23 | `IdMap`, provider set/delete with fault points | invariant; case analysis of fault points |
| C24 | `Freelist` mint as CAS-loop transition system; sequential acquire | invariants |
| C25 | `Neighbors` flat array with stride | frame + read-after-write over histories |
| C26 | `DynamicBalancer` transition system | inductive invariant with ghost counters |
| C27–C29 | arithmetic functions | Nat arithmetic / list lemmas |
| C30 | working set `Map` | invariant |
| C31, C32 | FSM bitmaps as functions of id; atomic steps | inductive invariant; reload function |
| C33 | backfill ranges | arithmetic |
| C34 | stored list + cache under set/append | negation with witness, partial theorem |
| C35 | `Value` tree, JSON image, decode | structural induction; negation with witness for sentinel strings |
| C36 | conversions with saturating casts over exact rationals/dyadics | negation with witness; partial |
| C37 | string functions | digit-list round trip |
| C38 | name function | injectivity of zero-padded decimal + separator |
| C39, C40 | file-system transition system, crash at every prefix | induction over the trace; negation with witness for C40 |
| C41, C42 | byte-string keys | injectivity / lexicographic order; negation with witness for NUL in field and Empty vs "" |
| C43 | index as map from key to posting set; AST evaluation | negations with witnesses for float/integer range boundaries; partial for the fragment where both agree |
| C44 | parser over JSON tree | negation with witness; partial |
| C45 | byte encoding | round trip, prefix rejection |
| C46, C47 | bytes as `Nat`/`BitVec 8` lists | bit-level extensionality |
| C48 | heap array as list/`Array` | sift-down invariant |
| C49, C50 | reader/writer state machines | refinement to byte stream |
| C51 | byte-level writer and reader | address arithmetic, read-back; negation for tiny block sizes |
| C52 | little-endian encoding | round trip |
| C53 | cache struct | negation with witness; partial |
| C54 | exact rationals | finite-set cardinalities |
| C55 | record encoding with dirty scratch buffer; accessors as threads over striped locks | round trip over histories; inductive invariant for the concurrent part |
| C57 | paged search state (`Search/Model.lean`), any request sequence | invariant: drained ++ queue is a permutation of the computed vertices |
| C58 | scratch reuse | equality of runs |
| C59 | range search statistics | partial (first round only); negation with witness for the second round |
| C60 | disk vertex provider over the byte-level file model | refinement for batches of distinct ids; negation with witness for repeated ids |
| C61 | BFS cache builder and caching provider over the byte-level file model | loop invariants over the traversal; refinement for batches |
| C62 | same transition system with the barrier lock and a ghost event log | inductive invariant |
| C63 | `DiverseNeighborQueue` over the candidate list model | declarative best-selection specification (shown to have one answer), invariant over histories; negation with witness for ties |
| C64 | `multi_insert`: candidate generation, bootstrap round, back-edge aggregation, bulk assignment, partitioned back-edge tasks | the final list of each vertex as a function of its old list and the batch vectors that chose it; permutation invariance of every collected list; refinement to `insert` for one vector; witness for the record cut |
| C65 | `inline_filter_search_internal`, `compute_adaptive_l`, `AdaptiveL::new`; the filter an arbitrary predicate, `sort_unstable_by` by its contract, the log scale an arbitrary function | invariant over rounds reusing the k-NN search invariants; simulation of the unfiltered search; arithmetic on `Rat` for the list size; witnesses for NaN, infinity and narrowing |
| C66 | `multihop_search_internal`: two-hop expansion, acceptance-aware visited set, rejected start filter | invariant over rounds with logs of what was fed to the list and which rejected vertices were expanded; exactness against an inductive two-hop reachability; witness for the cut |
| C67 | `FilteredRange::search` and `filtered_range_search_internal` on top of the inline search: merge, total-order sort, adjacent dedup, second phase, truncation, inner-radius filter | dedup of a list sorted by a total order; invariant of the second phase; completeness by induction on paths |
| C68 | `save_graph`, `load_graph` on bytes, with the writer's operations as in C50 and cut after any number of bytes; the in-memory provider's `create` callback | layout by computation; round trip and truncation by induction over the lists; torn header by a case split over the bytes written |
| C69 | `DiskAdaptor` on the provider's lists (points, start point, one slot more): all but the last, start id replaced by the medoid id | edges by computation; reachability by induction on paths; the counterexample runs two insertions of the update model |
| C70 | `write_bin`, `read_bin`, `save_to_bin`, `load_from_bin`, `VectorDataIterator` (next, nth, next_n; no associated data), `SampleVectorReader::{new, read_vectors}` on bytes | refinement: iterator and sampler state against the list of vectors; exact behaviour on cut files by induction |
| C71 | `compute_closest_centers_in_block`, `shard_data_into_clusters_only_ids`, `merge_shards` on lists, its file on bytes; not k-means, the shard sizing loop nor the shard builds | invariant of the merge loop over the processed (point, shard) pairs; partition by induction over the points; paths by induction |
| C72 | `ObjectPool::{new, try_new, get, get_ref, try_get, try_get_ref}`, the drops of `PooledRef`/`PooledArc`, `Vec` with `Undef`; one step per critical section | invariant over all interleavings of the steps |
| C73 | `ScalarQuantizer::{new, compress, compress_into}`, the three compensated distances, `train` with means and variances; exact rationals instead of `f32`, integer kernels as sums | rounding lemmas for the codes; induction over the dimensions for the distances |
| C74 | `MinMaxQuantizer::{get_range, compress, compress_into}`, `decompress_into`, the distances of `minmax/vectors.rs`, `recompress_kernel`; exact rationals, the transform and the square root as parameters | rounding lemmas for the codes; induction over the dimensions for the distances |
| C75 | every kernel of `bits/distances.rs` and the choice of kernel per architecture; bytes, registers and intermediate words as bit vectors, vector instructions by their documented lane-wise meaning; float operations exact; for eight bits the sum of `diskann-vector` and its passage through f32 | per kernel: lane lemmas, loop invariant, tail; sums in the ring of 32-bit words; bound on 16-bit intermediate sums |
| C76 | `simd_op`, the five `MainLoop` strategies, every `SIMDSchema` of `simd.rs` on floats and integers, `Resumable*`, the functors of `implementations.rs`, `DistanceProvider`, `norm.rs`; floats in an ordered field, integers in 32-bit words, the square root as a parameter | one theorem about the loop templates for any additive accumulator (block sums), then one instance per schema; Cauchy-Schwarz for the clamp |
| C77 | `load_simd_first`/`store_simd_first` of the emulated, doubled, x86 and Neon registers, `keep_first`; byte memory where an out-of-range access fails | byte extraction lemmas for overlapping reads and shuffles; induction over lanes for stores |
| C78 | `StridedBase` constructors and rows, `BlockTransposedRepr` layout arithmetic, the packing loops with their raw pointer cursor, element, row and block views | mixed-radix arithmetic; a content function for each memory position, and the four nested packing loops shown to fill it in order |
| C79 | `ChunkOffsets`, the basic table, `square_norm`, chunks of block-transposed pivots with the single and the batch kernel, the transposed table with vector, matrix and delegate interfaces, `process_into` | floats as field elements plus infinities and NaN; each lane is shown to accumulate the value of one pivot (infinity in the padding), each lane scan to keep the first minimum, the final reduction to minimise over lanes; pairwise updates of the batch kernel equal sequential ones without NaN |
| C80 | `FixedChunkPQTable` construction, direct distances, inflation and lookup tables; single, tiled and gathered lookups; query, distance and multi-version computers; `quantizer_preprocess` and `pq_distances` of disk search | chunk loops shown to feed the distance kernels of C76 exactly the pairs of the whole vectors; tiled lookup shown to add the same table entries in the same order, for an arbitrary addition; two-schema dispatch by cases on the versions |
| C81 | `DiskIndexSearcher` (`search`, `search_with_indexed_vectors`, `flat_search`), `DiskAccessor` expansion with the I/O limit and the distance cache, rerank and diversity post-processors, the output buffer | simulation of the disk traversal by the beam search of C13–C15 on the stored graph cut off at the I/O limit, with an invariant that ties the cache to the vertices read; reranking shown to give the stored values by cases on cached or freshly read; sorting and truncation shown to give the top k |
| C82 | `determinant_diversity`, `greedy_orthogonal_select`, `distance_to_similarity`, parameter checks, the in-memory and disk post-processors | loop invariant on the available rows for any arithmetic; with exact arithmetic the invariant that rows are the components of the scaled vectors orthogonal to the selection, and that the Gram determinant grows by the squared residual norm (block factorization of the Gram matrix) |
| C83 | `hadamard_transform` with its micro-kernels, `PaddingHadamard`, `DoubleHadamard`, `RandomRotation`, `NullTransform`, `Transform` | the recursion and the kernel equal the Hadamard matrix given by the parity of the common bits of the indices; orthogonality by induction on the exponent; averages over all subsets by counting; construction and lengths by case analysis |
| C84 | `pack`, `try_unpack` and `try_from_parts` of all transforms | round trip by case analysis and the facts of C83 about new transforms; the checks are equivalent to a predicate on the serialization, which implies the preconditions of `transform_into` |
| C85 | `square_norm`, `distances_in_place`, `update_centroids`, `lloyds`, `update_distances`, `kmeans_plusplus_into`, PQ `train`, `flatten` | exact arithmetic in an ordered field, lanes and blocks as in the code; induction over blocks, centers and repetitions; descent from the mean minimising sums of squares; the running-sum pick by induction over the rows |
| C86 | `Kmeans/DiskModel`: flat data, the three matrix products that give a block of distances, blocks of 1200 points, the inverted index, Lloyd iterations with the padded array of residuals as in the code, the test for ending, the dart of k-means++ and the random filling. Numbers are an ordered field, `f32::MAX` a parameter, the order in which a heap gives back equal distances a parameter. | The block is proved to hold squared distances, the loop over blocks to be a map, the inverted index by induction; an iteration is then the step of Lloyd's algorithm of C85, so descent carries over. The residual is proved to be the part of the loss over the points whose number divided by 16384 is a multiple of 32: equal to the loss up to 16384 points (`_partial`), refuted beyond by a family of data sets. |
| C87 | `Label/EncodedModel`: equality and hash input of attribute values on bits, the encoder, set providers, `set_element`, `delete`, the mapper from filters to id expressions, their evaluation, the scoring and the filtering loops with the index of the time each candidate is looked up, and the document provider over a data provider that is a status per id. Roaring sets and hash maps are lists; poisoned locks are not modelled. | One invariant (ids distinct, forward and inverted index both equal to the attributes of the history), preserved by every operation; ids only grow, so an encoded filter keeps its meaning; mutual induction over filters. Status by a life-cycle invariant; negations by witnesses and, for the status of deleted documents, for every history. |
| C88 | `Multi/Model`: the tile planner, the five loops over offsets into flat memory (block-transposed query from C78's construction, row-major document), the micro-kernel lane by lane with its register layout and reduction tree, the conversion buffers with their capacity, the prepared and the reference kernel, `MaxSim`, `Chamfer`, `ProjectedEigen`, and the quantized kernel over an arbitrary distance. Exact arithmetic; NaN not modelled; the choice of kernel by CPU features is not modelled. | A loop covers a rectangle of rows and documents; rectangles compose along either side. Induction over each loop, the peeled tile and the partial panel close the rectangle. Equality with the reference gives agreement; the empty document and the dropped error are refuted by general theorems. |
| C89 | `Search/FlatModel.lean`: visitor, callback, queue of capacity k, escalation of scan errors, post-processing into the caller's buffer; a scan is the list of pairs the caller's visitor delivers and its ending | the queue theorem C01 and the buffer theorem C18 composed, permutation invariance of the sorted prefix |
| C90 | `Tools/TruthModel.lean`: the batch loop, the bitmap test, the insert loop, the queues, the draining and the two file formats with their readers; the distance is a parameter | invariant over batches (each queue has been fed exactly the permitted prefix), C01 for the queue, byte-level round trips |
| C91 | `Tools/BitmapModel.lean`: flattening with dots, the maps of the documents, the check of types, both accelerators, the universe of a negation and the evaluation | the meaning of a filter on attributes (`Tools/BitmapSpec.lean`, `Sat`) by induction on filters, from what each accelerator files; then agreement with `eval_query_expr` (model of C43) on plain filters, and eight refutations |
| C92 | Model of spherical quantization (`Verif/Spherical`): training, preprocessing, the three compressions for 1, 2, 4 and 8 bits with their errors, metadata and the distance functors of the three metrics, over an ordered field; the conversion to 16 bit floats and the norm are parameters. Algebra of the reconstructions, Cauchy–Schwarz for the error bound; mirror images about the center for the rejection of eight bit codes. | partial: queries with a constant transformed vector give NaN, eight bit codes of 515 or more dimensions are rejected, squared distances can be negative, a pre-scale changes distances |
| C93 | The walk over the critical scales (`Walk.loop`), with the root of the heap as any least position. Invariant: the levels are those of every scale below the next critical value, and the best similarity so far dominates all scales passed; every choice of levels is compared with the levels at the scale at which it is a nearest point; the codes at the recorded scale differ from the recorded levels only within the epsilon the code adds. | proved: ratio 1 at one bit, 999/1000 at more |
| C94 | Model of the pivot file at byte level (`Verif/Pq/Store*`): the sequence of writes and seeks of the writer, a crash after any number of bytes, the reader with all its checks, the decision between training and loading. Bit patterns for `f32`, its addition a parameter. Layout lemma for files with a completed header, then case analysis over the crash point. | partial: the seven crash points inside the last header field are left out; preparation does not recover from an interrupted write, pivot training reports success over one, and the dimension of an existing table is not compared with that of the data |
| C95 | Model of both compression loops at byte level (`Verif/Pq/Compress*`): blocks, seeks, writes and header of `generate_data` and `generate_pq_data_from_pivots`, over an arbitrary compressor that works row by row, and the loader. Induction over the blocks; the vector file format of C70. Only the file system provider is modelled: with the virtual provider a resumed header goes to the end of the file. | partial: an existing file is not validated against the resume offset, and the build tool reads every data file as `f32` |
| C96 | Model of reading, validation, execution and ground truth lookup of runbooks (`Verif/Runbook`): the YAML value as a tree, the validator with its compacted ranges, stages as operations on an abstract stream. Invariant: the ranges are separated, sorted and cover exactly the active tags. | proved; the documentation on stage numbers and number of points does not hold, negative numbers and replacements of unequal length load |
| C97 | Model of the tag and slot manager, the managed stream and the data layer (`Verif/Runbook/Managed*`) above an index with one vector per slot that refuses occupied or dead slots. Invariant over stages: free, live and deleted slots partition the slots, the two maps are inverse, live slots hold the table's vectors. Refinement to a table from tags to vectors. | partial: with deferred reuse a tag inserted again before maintenance is lost, and a threshold of one half exhausts the slots; with two start points the bf-tree benchmark overwrites one |
| C98 | Model of the stream that computes ground truth (`Verif/Runbook/Truth*`) over the runbook model of C96, the queue of C01 and the file of C90. Invariant over stages: the id map follows the table from tags to vectors. The order of the hash map is a parameter; the queries run in parallel but do not interact. | proved for runbooks that the data covers, with replacements of equal lengths and tags below 2^32; each of the three conditions is unchecked and its violation gives wrong ground truth without an error |
| C99 | Model of the aligned store as one list of elements with offsets, of the deletion table as 32-bit words, of neighbour slots with their length cell, and of the provider on top (`Verif/Provider/*`). Refinement to a table of functions from ids, by induction over histories. Files through the models of C68 and C70. | partial: deletions are not saved; a failed set can leave a mixed code; one list too many; start points are not protected; the number of points is cut to 32 bits |
| C100 | Model of every strategy, of the samplers and of both medoids of a file (`Verif/Start/*`); random draws are arbitrary functions, floats are rationals or not finite. Loop invariants for the scan and the shuffle; files through C70. | partial: a value that is not finite or no data gives a zero vector; a latin hypercube of more points than data panics; the maximum sample size is not one |
| C101 | Model of the tasks of `run_build` and `run_final_prune` as interleaved steps over the shared iterator and the graph, and of the lists that are saved (`Verif/Build/*`); an insertion is one step whose outcome the schedule decides. Invariant over schedules (a permutation of rows handed out), fuel for termination; degrees through C09. | proved; the number of rows is not compared with the number of points, and 2^32 lists fail only at the end |
| C102 | Model of the builder, its setters and all its checks, with f32 rounding to nearest even exact (`Verif/Config/Float.lean`: nearest, monotone, fixed on floats), and of the attempts of `insert` (`Verif/Config/*`). The result of the builder is characterised by an equivalence; the loop by induction, degrees through C09. | partial: slack and ratio only up to 24 bits, above they can be refused; the product can be rounded up |
| C103 | `Verif/Harness`: tasks with a program counter over a shared head, load and compare-exchange as steps, outcome of each batch chosen by the schedule; the cutting of fixed parts with its overflow; output buffers, matrices with lengths, the aggregator with its panics. | Invariant over all schedules (batches started = the first k batches, up to order), a measure that every step of an unfinished task decreases, errors characterised by the schedule; fixed parts and searches by induction over the parts. Refuted: non-empty ranges, huge batch sizes, sequential execution with batch size 1. |
| C104 | The traversal over the diverse candidate list with its parameter checks and post-processing (`Verif/Search/DSearch*`) | Invariant over rounds that ties the list to a history of insertions and pops, so that the specification of C63 applies; termination by the unexpanded vertices; closure argument for exactness |
| C105 | `Shard/Model.lean`: the limit, the number of chunks, the estimate, the choice between one build and shards, sampling, the loop over numbers of shards with the clustering of C86 and the id maps of C71, `f64` as rationals | `Shard/Props.lean`: limits and chunks that are accepted; one piece exactly below the limit; the first number tried; the loop ends in the first round in which every shard of the sample fits, without errors or panics; what is written fits for 50000 configured points. Refuted: ending (copies of one vector), the limit (small data sets), non-empty shards |
| C106 | `Garnet/StoreModel.lean`: the records of an element (used id, vector, code, the two id maps, attributes), one step per storage call, insertions, removals, attribute updates and restarts with any storage call failing | `Garnet/StoreProps.lean`: over histories without failures and re-insertions the set is a map and the answers say so; over histories with failures it is a map whose changes agree with the answers, as long as removals delete the mapping to the internal id; other elements never change; ids are not shared, the cardinality is at least the number of elements. Refuted: the map after a lost mapping, failed insertions and removals without traces, elements inserted twice, the exact cardinality |
| C107 | `Garnet/StartModel.lean`: the gate in front of insertions as atomic steps of any number of threads; the records and caches of the start point and the free id map, with failing storage calls and restarts | `Garnet/StartProps.lean`: at most one thread makes the start point at a time and at most once, threads pass only after it was made, a failure opens the gate again, some thread can always step; the start point is that of the first insertion and stays over all calls and restarts. Refuted: trying again after a failure |
| C108 | `Garnet/ReportModel.lean`: the output buffers as bytes, `push` and `extend`, the steps after a search, the rounds of the random draw, the listing of neighbours | `Garnet/ReportProps.lean`: the longest prefix that fits is written and reads back, bytes behind it are untouched; search results in order, with exact distances if quantized; the draw ends, is without repetition and complete if there is room. Refuted: listing neighbours over dangling edges, knowing how many members were drawn |
| C109 | `Garnet/QuantModel.lean`: the records and variables of a set while it becomes quantized; training, the tasks step by step, insertions, removals, restarts, failing storage calls | `Garnet/QuantProps.lean`: by an invariant over all interleavings without failures: every vector has its code whenever the set works with codes, for ever; the tasks end there; shares without gap or overlap. Refuted: a restart before the end of the backfill, trying again after a failed write, failed writes, tasks started twice |
| C110 | `Io/RingModel.lean`: the submission and completion queues, requests in flight, completions by the kernel in any order with any result, batches, flushing; the reader for data in memory; alignment | `Io/RingProps.lean`: by an invariant over all orders of completion: full buffers, nothing else touched, ring ready for the next call; errors noticed; calls can end. Refuted: short reads, calls after a failed call, signals, codes of errors |
| C111 | `Alloc/Model.lean`: rounding up by masks with overflow, the load and exchange of the head per thread, the life of an owning pointer as a log of events | `Alloc/Props.lean`: by an invariant over all interleavings: aligned, inside, disjoint, kept, failing only if full, lock-free; each value dropped once. Refuted: values without size, which are dropped twice |
| C112 | `Runner/CheckModel.lean`: JSON values, `is_subset` as its loop with a stack, scores, the registry with its registrations and refusals, the map of tolerances, parsing, the double loop and `check_matches`, jobs, `Jobs::run`. Rust types are numbers; deserialization and the user's functions are parameters; the `Checker` of paths is not modelled | Refinement of the stack loop to a specification by paths (`Runner/CheckSpec.lean`), induction over registrations, closed form of the double loop; `C112_subset`, `C112_subset_order`, `C112_score`, `C112_best`, `C112_registered`, `C112_tolerances`, `C112_checks`, `C112_problems`, `C112_accepts`, `C112_no_panic`, `C112_verdict_partial`, `C112_report`, `C112_inputs_ignored`; refuted: `C112_other_benchmark_refuted`, `C112_tolerance_type_refuted`, `C112_output_refuted`, `C112_wrong_results_refuted` |
| C113 | `Runner/SaveModel`: names and files of a POSIX file system, the steps of a save (look for the temporary file, create, writes of any size, rename), the loop of the `run` command with partial results, kills, later runs | `Runner/SaveProps`: invariant over all sequences of steps; stuck states; two witnesses. Loss of power (bytes or renames not on disk) is not modelled |
| C114 | `Garnet/BeamModel`: flat buffers of keys, callbacks by position, decisions by position, compaction in place, the three expansions with any stateful predicate, `fill`; an index out of range is a panic | `Garnet/BeamLemmas`: closed forms of the loops; `Garnet/BeamProps`: membership, uniqueness, order, decisions, errors. The store does not change during an expansion |
| C115 | `Garnet/RaceModel`: records and lists, one step per storage call of insertions and removals, any number of threads, id choice and picks of searches left open | `Garnet/RaceLemmas`: an invariant with a ghost owner per id over interleavings in which no id is handed out while a removal works on it; `Garnet/RaceProps`: kept elements and lists (partial, full without reuse), three refutations by concrete interleavings |
| C116 | `Label/FaultModel`: insertion, deletion and update of documents over a store in which a given number of calls still work and which refuses some records, with the store each attempt leaves | `Label/FaultLemmas`: posting lists and reverse mappings as two separate relations, specification of every attempt, the invariant between attempts, monotone filters; `Label/FaultProps`: other documents, retried histories, no mixtures, progress, link to C43, full labels, four refutations |
| C117 | `Bftree/VecModel`: both stores as tables, striped locks, the steps of stores and deletions of any number of threads, failing writes and compression; start points, expansion and reranking over reads at different moments | `Bftree/VecSpec`, `Bftree/VecLemmas`: invariant of lock owners and half-done calls, steps as a relation; `Bftree/VecProps`: kept stores and deletions, agreement, no ghosts, nothing made up, progress, expansion and reranking against list specifications, start points, three refutations |
| C118 | `Bftree/SaveModel`: the files of a prefix by name in storages and the file system, a save as a list of changes with a moment for each part, both loaders; names are strings of characters | `Bftree/SaveLemmas`: names of different files or prefixes differ, what loaders depend on; `Bftree/SaveProps`: saved parts, round trip, kinds, other prefixes, crash points under a new prefix, six refutations |
| C119 | `Vec/ContainsModel`: loads of lanes that fail outside the slice, comparison to masks, highest bits of the lanes, the stages of 32, 16, 8, 4 and 2 elements and the last loop | `Vec/ContainsProps`: comparison of a piece, doubling, stages keep the meaning, both widths |
| C120 | `Search/BetaModel`: the layer over an accessor (distances scaled, other calls forwarded, early termination not), the greedy search over it, the check of the factor in the benchmark | `Search/BetaProps`: neutral factor, results, preference, smaller factors, accepted factors; refutations for negative distances, early termination and factors |
| C121 | `Inmem/LiveModel`: searches (reads under a guard, ranked candidates, translation of each under the lock of its shard, output buffer and count) beside the steps of `set_element` and `delete` of `Inmem/IdsModel`, stored vectors, last graph update of each call, beam expansion with prefetches; `Inmem/LiveSpec`: elements, outcomes, fresh neighbours | `Inmem/LiveLemmas`: steps keep what searches have read, invariant with the history; `Inmem/LiveProps`: outcome, results, deleted elements, ids once, count, progress, expansion, prefetches, refutations |
| C122 | `Vec/LaneModel`: the intrinsics with their documented meaning on lanes or bytes, and over them comparisons, selection, byte products, shifts, minimum and maximum with NaN, sums, `deinterleave` and dot products, zip and unzip, the six mask types, bit masks of all widths and doubled masks | `Vec/LaneProps`: masks hold on exactly the lanes where the scalar comparison does, products and dot products modulo the width, additions in the order of the reference, zip and unzip inverse, bits to mask to bits, `keep_first`, first, all, count, split and join. The AVX-512 and Neon wrappers are not modelled |
| C123 | `Disk/QuantTypeModel`: `FromStr` (trimming, lower case, splitting, the four forms, `usize` with overflow, deviation and its sign) and `Display`; Unicode tables and the text of an `f64` are parameters with a specification | `Disk/QuantTypeProps`: accepted texts are exactly the documented forms, accepted types are valid, round trip (partial), distinct names, case and white space; refuted: scalar quantization with the default deviation |
| C124 | `Runner/LatencyModel`: `mean` with wrapping sum, `compute_percentiles` with bounds checks, `max_f64`, `NonNegativeFinite`, `relative_change`, the SIMD check; floating point as rationals, infinities and NaN without rounding | `Runner/LatencyProps`: totality, minimum, percentiles by counting, median, order, independence of the sample order, mean (partial), largest value, relative change, check passes iff; refuted: mean after overflow, identical results pass |
| C125 | `Quant/CanonModel`: canonical front and back layouts (shared and mutable constructors), metadata slices with alignment, MinMax vectors read from bytes; `usize` arithmetic wraps at 2^64, access outside a slice is an explicit failure; codes are the bit slices of C46 | `Quant/CanonProps`: exact acceptance, disjoint parts, write/read for both layouts, shared = mutable, alignment, MinMax reading, round trip, trailing bytes, destination length (partial: sizes below 2^64); refuted: overflowing sizes, MinMax length check, exchanged lengths in the error |
| C126 | `Spherical/IfaceModel.lean`: `iface.rs` match tables of the type-erased `Quantizer` (supported forms, computers, descriptions, compress/fused/evaluate, rescale, serialized width) over the compression and distance functions of `Spherical/Model.lean`. A buffer is an address, a length and what each reader finds in it; what a write leaves for readers of other forms is arbitrary. | `Spherical/IfaceProps.lean`: case analysis of the tables against `query_computer`; compression depends on the old codes only up to distances; sizes by linear arithmetic |
| C127 | `Tools/RandomDataModel.lean`: the checks, the header, the blocks (each with its own generator from seed 0), the scaling to the norm and the conversions. The generator is an arbitrary state machine; the normal distribution draws numbers of an ordered field, the root is a parameter with its specification; no rounding of floats. | `Tools/RandomDataProps.lean`: induction over blocks and rows; rounding by floor bounds |
| C128 | `Tools/LabelGenModel.lean`: the three loops of `generate_labels` over arbitrary draws and an arbitrary hash map order, writing tokens; splitting, trimming and matching of `MultiLabel`. 0.7 is exact. | `Tools/LabelGenProps.lean`: the loops render the chosen lines, and a separate reader gets them back (induction over points and labels); remaining uses as an invariant |
| C129 | `Error/AnnErrorModel.lean`: the chain of an `anyhow::Error` (root, contexts, walk from the newest; debug format) and the methods of `ANNError` over `Located` values. Backtraces are not modelled. | `Error/AnnErrorProps.lean`: an error is compared with the list of what was put in; induction over contexts |
| C130 | `Tools/ContrastModel.lean`: the loops of `relative_contrast.rs` in exact arithmetic with infinity and NaN for divisions by zero; `run_for_type` of `subsample_bin.rs` over the files, sampling reader and writes of `Disk/VectorFileModel.lean`. | `Tools/ContrastProps.lean`: induction over queries, samples and neighbours; subsampling from the reader's theorem of C70 |
| C131 | `Disk/MultiVecModel.lean`: `load_multivec_bin` over the bytes of a file. | `Disk/MultiVecProps.lean`: little-endian encode/decode in both directions; induction over points; truncation from acceptance and reading back |
| C132 | `Pq/MultiProviderModel.lean`: the provider over the tables of C80 and the compression of C79, with its random generator as a sequence. | `Pq/MultiProviderProps.lean`: invariant over histories of calls; distances from C80 |
| C133 | `Runner/CheckerModel.lean`: `Checker` over paths as characters with the components of `std::path`. The file system is a function that does not change. | `Runner/CheckerProps.lean`: induction over directories and jobs; components of a joined path by cutting at separators |
| C134 | `Label/JsonlModel.lean`: the four readers over the bytes of a file. The parser of JSON and the parser of filters are parameters. | `Label/JsonlProps.lean`: induction over lines; first bad line by splitting the list |
| C135 | `Bench/LinearModel.lean`: `linear_search` over the queue of C01, with the order of the threads as a parameter; `SearchValues::validate` and the pairs of `compute_multiple_recalls`. Query computers are lists of distances. | `Bench/LinearProps.lean`: induction over the order; nearest points by C01 |
| C136 | `Bench/SpanModel.lean`: the collector, the map of children, the recursion with fuel, the metrics object. Conversion of attribute values is a parameter. | `Bench/SpanProps.lean`: the levels of the forest, each a permutation of the children of the one above; induction over levels |
| C137 | `Tools/SpecificityModel.lean`: `main` over the bitmaps of C91; doubles are rationals, printing with six decimals is not modelled. | `Tools/SpecificityProps.lean`: sizes by C91; counts on sorted lists for the median. `C137_share_partial` inherits the restriction of `C91_agrees_partial` to filters that both evaluations read in one way. |

## Disagreements between code and property (found while modelling)

Each line is a proved theorem about the model: a concrete input on which the code, as written, does not do what the
property (or the code's own documentation) says. The strongest true statement found is proved beside it, with the
suffix `_partial` when it is weaker than the property.

| property | code | what goes wrong | theorem |
|---|---|---|---|
| C01 | queue.rs `insert` | a fixed list of capacity 0 panics | `C01_zero_capacity_panics` |
| C02 | queue.rs `drain_best`, `truncate` | rewind the cursor without clearing flags: an expanded candidate is offered again | `C02_drain_best_reoffers_expanded`, `C02_truncate_reoffers_expanded` |
| C02 | queue.rs `retain` | keeping everything clears the flags but does not rewind: nothing is offered | `C02_retain_all_offers_nothing` |
| C02 | queue.rs `remove` | removing the candidate about to be offered leaves the cursor on an expanded one | `C02_remove_reoffers_expanded` |
| C03 | queue.rs `remove` | looks only at the first entry of equal distance: a stored candidate is reported missing | `C03_remove_fails_on_tie` |
| C07 | prune.rs | a NaN alpha is accepted and pruning never ends | `C07_nan_alpha_diverges` |
| C07 | prune.rs, `Occluding` rule | a pool with one id twice gives a neighbour list with that id twice | `C07_duplicate_pool_gives_duplicate_neighbors` |
| C08 | prune.rs, `Occluding` rule | occlusions found in the first round are forgotten | `C08_occluding_forgets` |
| C10 | index.rs `add_edge_and_prune` | after a swallowed retrieval failure the list of another vertex is written | `C10_stale_scratch_written` |
| C17 | range_search.rs | with a negative radius the slack narrows the search | `C17_slack_narrows_negative_radius` |
| C24 | store.rs `acquire` | the scan counter wraps: a free slot is missed | `C24_acquire_incomplete` |
| C30 | working set | after the generation counter wraps the capacity is exceeded | `C30_generation_wrap` |
| C32 | fsm.rs `load_state` | a read failure is taken for the end of the data | `C32_read_failure` |
| C33 | backfill ranges | the start of a range wraps: ranges overlap | `C33_backfill_overlap` |
| C34 | garnet `append` | an early return leaves the cached list stale | `C34_append_stale` |
| C35 | record values | the strings "nan", "inf", "neg_inf" cannot be loaded back; `Some(None)` becomes `None` | `C35_sentinel_strings`, `C35_nested_option` |
| C36 | record numbers | conversions at the 64-bit maxima lose the value silently | `C36_float_of_int_lossy`, `C36_int_of_float_lossy` |
| C37 | version text | "+1.02" is accepted | `C37_liberal` |
| C38 | artifact names | a key with a trailing slash passes the filter and creation fails | `C38_trailing_slash` |
| C40 | save | dropping a failed save removes another save's temporary manifest; a torn manifest can be committed | `C40_removes_foreign_temp`, `C40_torn_manifest` |
| C41, C42 | attribute keys | a NUL in a field collides or falls into another field's range; Empty equals ""; -0.0 sorts below 0.0 | `C41_nul_collides`, `C41_empty_collides`, `C42_nul_in_space`, `C42_neg_zero` |
| C43 | inverted index | gt returns equal values, lte misses them, fractional and huge bounds, empty `and`, arrays, -0.0, u64, null, ids over 32 bits, re-insertion | `C43_gt_returns_equal` and the other ten C43 witnesses |
| C44 | filter parser | siblings of a logical operator and plain-value conditions are dropped | `C44_siblings_dropped`, `C44_siblings_violation`, `C44_plain_value_dropped` |
| C50 | CachedWriter `reset` | the reported size counts overwritten bytes twice | `C50_reset_size_wrong` |
| C51 | disk layout | for block sizes 80 to 103 the header overlaps vertex 0 | `C51_header_overlaps_first_vertex` |
| C53 | disk cache | inserting an id again serves stale or foreign lists | `C53_reinsert_stale`, `C53_reinsert_corrupts_other` |
| C56 | `multi_inplace_delete` | deletions of one batch race: a live vertex gains a new edge to a deleted one | `C56_batch_links_to_deleted` |
| C57 | paged search | seed ids are excluded although the comment says they should not be | `C57_seed_ids_never_returned` |
| C59 | range search statistics | the second round's counts are wrong | `C59_second_round_stats_wrong` |
| C60 | disk vertex provider | an id repeated in a batch shifts every later answer | `C60_repeated_id_misaligns` |
| C63 | diverse list | distance ties let an attribute exceed its limit; a zero limit panics | `C63_tie_breaks_limit`, `C63_zero_local_limit_panics` |
| C64 | `robust_prune_with` | the vectors fetched for pruning are cut at `max_occlusion_size` in visiting order, before sorting, so the nearest candidates can be dropped; `insert` sorts first | `C64_cut_in_visit_order` |
| C65 | adaptive list size | the 'scaled up' size replaces list size plus start points, so with several start points it can be smaller and lose the only match | `C65_adaptive_can_narrow` |
| C65 | `AdaptiveL::new` | a NaN or infinite scale factor passes validation; the search then panics in `clamp` or in the allocation | `C65_nan_scale_panics`, `C65_infinite_scale_panics` |
| C65 | inline filtered search | an accepted vector with NaN distance is returned and leaves the results unsorted; the unfiltered search never returns one | `C65_nan_distance_returned` |
| C66 | multi-hop search | rejected neighbours beyond half of the degree bound are marked visited without being expanded and are never reconsidered, so accepted vectors behind them are lost | `C66_truncated_candidates_lost` |
| C67 | filtered range search | the maximum is applied before the inner radius, so matches that are never output use it up | `C67_inner_radius_uses_up_maximum` |
| C67 | filtered range search | with a maximum the second phase keeps the first matches found, not the closest | `C67_maximum_keeps_far_matches` |
| C68 | loading a graph file | a graph file without extra start points whose save stopped before the header update loads without error as an empty graph | `C68_interrupted_accepted` |
| C68 | loading a graph file | a list longer than the header's maximum degree panics instead of being reported | `C68_long_list_panics` |
| C69 | disk index graph | a point reachable only through the start point's own list, to which nothing leads on disk, is unreachable on disk; two insertions suffice | `C69_point_lost` |
| C69 | disk index graph | the list of the start point is saved although documented as left out: the in-memory provider has one list more than start points account for, so the disk graph has one list more than there are points | `C69_disk_lists` |
| C69 | disk index graph | a saved list can name a point twice or the point itself (the source comments on the duplicates) | `C69_duplicates` |
| C70 | loading vectors into a store | a file that lost its end loads without error; the missing vectors keep the initial value (the iterator turns read errors into the end of the data) | `C70_truncated_load_succeeds` |
| C70 | loading vectors into a store | the file of a save stopped before the header update loads as an empty store | `C70_interrupted_save_loads_empty` |
| C70 | sampling reader | after a callback error the reader's position and its index disagree: the next call returns other vectors than asked for | `C70_callback_error_shifts` |
| C71 | merging shard graphs | lists longer than the maximum degree are cut at random, so a point that every shard could reach can become unreachable | `C71_cut_loses_point` |
| C71 | merging shard graphs | the only start point is the medoid of the last shard; shards that share no point with it are unreachable | `C71_shard_lost` |

| property | what goes wrong | theorem |
|---|---|---|
| C73 | Training on rows that are all equal (one row, say) gives scale 0; compressing that row reports no error but stores a NaN compensation, so every inner product with it is NaN, and all Euclidean distances are 0 | `C73_constant_training` |
| C74 | The cosine distance involving a vector that stands for the zero vector is NaN or infinite | `C74_cosine_zero` |
| C75 | The eight-bit distances pass through f32: from 2^24 on they need not be exact, and an inner product between 2^31 and 2^32 is reported as 0 | `C75_eight_bit_inexact`, `C75_eight_bit_zero` |
| C76 | The distance of two `u8` vectors of 33026 or more dimensions can be reported negative: the 32-bit accumulator overflows (Neon accumulates in `u32` and differs) | `C76_int_overflow` |
| C77 | On Neon, loading the first 2^63 or more 16-bit elements loads zeros (release) instead of the whole register: the byte count `2 * first` wraps | `C77_words_wrap` |
| C79 | `Chunk::find_closest` documents that ties are resolved to the lowest index; they are resolved by index modulo eight first | `C79_ties_false` |
| C79 | `Chunk::find_closest_batch` documents the semantics of `find_closest`; with a NaN pivot it loses the finite pivot eight positions later | `C79_batch_nan_false` |
| C80 | tables with fewer than 256 centers are accepted, but preparing a disk query with one panics: the lookup takes the stride to be 256 | `C80_few_centers_false` |
| C80 | for normalized vectors the query computer and the distance computer of the same metric can order two codes differently | `C80_normalized_false` |
| C80 | `MultiDistanceComputer` does not check the length of the vector that `DistanceComputer` checks | `C80_multi_length_false` |
| C81 | a flat scan with list size 0 and k = 0 passes the argument checks and panics on the first comparable point; graph searches return an error | `C81_flat_zero_list_panics` |
| C81 | vertices read while reranking are neither limited by `search_io_limit` nor counted in the statistics | `C81_rerank_reads_uncounted` |
| C82 | `eta` is documented as a ridge regularization of the determinant, but has no influence on the selection with exact arithmetic | `C82_eta_ignored` |
| C82 | the selection is documented to maximize `det(X Xᵀ + eta I)` greedily; with `eta > 0` it does not | `C82_ridge_false` |
| C82 | a comment says that with NaN norms the first comparable candidate is picked; the last and least one can be | `C82_nan_false` |
| C82 | the similarity is documented to lie in (0, 1]; that of the closest candidate is 1 + EPSILON | `C82_similarity_above_one` |
| C83 | the double transform is documented to apply one Hadamard transform if the dimension is a power of two; it always applies two | `C83_single_transform_false` |
| C84 | a double transform whose sample exceeds the intermediate dimension is accepted; transforming with it panics | `C84_double_unpack_panics` |
| C84 | a debug assertion said to be implied by the checks before it fails for the sample of all coordinates | `C84_debug_assert_false` |
| C85 | the assignments and the residual returned by `lloyds` belong to the centers before the last update, not to the returned ones, contrary to its documentation | `C85_result_stale` |
| C85 | `lloyds` without repetitions reports the residual 0 and the assignment of every row to center 0, whatever the data | `C85_no_repetition` |
| C85 | `lloyds` without centers and `kmeans_plusplus_into` with no center to fill panic on non-empty data; the documentation names no such panic, and for empty data the latter is accepted | `C85_no_centers_panics`, `C85_plusplus_no_centers_panics` |
| C86 | `lloyds_iter` stores one residual per chunk of 16384 points in an array padded by a factor of 32 and then adds every 32nd entry, so only every 32nd chunk counts. With more than 16384 points the returned residual is too small and `run_lloyds` can stop after one iteration at a clustering that another iteration improves. | `C86_residual_wrong` |
| C86 | `compute_closest_centers` accepts `k = 0` and panics as soon as there is a point. | `C86_closest_zero_panics` |
| C86 | `k_meanspp_selecting_pivots` accepts zero centers and panics. | `C86_pivots_no_centers_panics` |
| C87 | A document that is deleted and not yet released has attributes but is deleted in the data provider; `status_by_internal_id` answers with an error instead of `Deleted`, so `drop_deleted_neighbors` on it fails. | `C87_deleted_is_error` |
| C87 | A filter is refused as a whole if one of its comparisons mentions a value no vector ever had, also under `or` and `not` where vectors satisfy it. | `C87_unknown_value_refused` |
| C87 | Integers above the `i64` range become doubles: a filter for 2^63 + 1 accepts a document with 2^63. | `C87_big_integers_collide` |
| C87 | Beta multiplies the distance also if it is negative (inner product), which moves vectors that satisfy the filter away. | `C87_beta_negative_wrong` |
| C87 | `insert_values` stops inserting at the first value that is already present (`all_inserted && insert(..)`). | `C87_insert_values_wrong` |
| C88 | `MaxSim::evaluate` on a document without vectors succeeds and leaves the stale scores, where the kernels of the factory write the largest float. | `C88_empty_document_stale` |
| C88 | The Chamfer distance of a document without vectors is zero, which ranks it before every document with positive distance; quantized, it is the largest float per query vector. | `C88_empty_document_chamfer`, `C88_quantized_empty` |
| C88 | Quantized `MaxSim` and `Chamfer` drop the error for unequal dimensions: stale scores, distance zero. | `C88_quantized_mismatch_silent` |
| C90 | Fewer than k comparable points for a query (a small dataset): the writer panics instead of writing what there is | `C90_too_few_points_panics` |
| C90 | `skip_base` is documented for an index whose first points are deleted, but the ids (and the bitmap tests) are renumbered from zero | `C90_skip_renumbers` |
| C90 | The number of label queries is not compared with the number of queries: with fewer, the computation panics | `C90_missing_bitmap_panics` |
| C90 | With associated data, a neighbour from the insert file indexes past the table and panics | `C90_inserted_associated_panics` |
| C90 | The command line tool uses the record type `()`: with an associated data file it writes no ids, and the loader reports the bit patterns of the distances as ids | `C90_unit_associated_data_misread` |
| C91 | The bitmap of a negation leaves out documents that lack one of its fields; the evaluator accepts them | `C91_not_drops_documents` |
| C91 | A label that no document has empties the bitmap of a negation when it comes first and is ignored when it comes later | `C91_not_depends_on_order` |
| C91 | Bitmaps compare numbers as doubles: `1` equals `1.0` and `2^53` equals `2^53 + 1`, unlike the evaluator | `C91_equal_as_doubles` |
| C91 | A range over text, or a number compared with text, fails the computation for all queries; the evaluator returns false | `C91_type_mismatch_fails` |
| C91 | A field that is an integer in one document and a real in another fails the computation for all queries | `C91_integer_and_real_fail` |
| C91 | A null in a label panics, even in a field no query names | `C91_null_panics` |
| C91 | A key with a dot matches the nested field of that path, unlike in the evaluator | `C91_dotted_name_matches` |
| C92 | `DataMeta` stores the sum of the codes in 16 bits: at eight bits and 515 or more output dimensions at least one of every vector and its mirror image about the center is rejected with an error | `C92_eight_bits`, `C92_eight_bits_rejects` |
| C92 | A compressed query whose transformed vector is constant (with the Hadamard transform: the center plus a multiple of the first basis vector) is accepted and all its distances are NaN | `C92_query_nan`, `C92_query_nan_example` |
| C92 | The squared L2 distance of a compressed vector to itself is negative unless its codes are exact | `C92_self_distance`, `C92_negative_distance` |
| C92 | Distances are documented as compatible with full-precision distances; with a pre-scale p the squared distances and inner products are p² times the full-precision ones | `C92_scaled_distance_false` |
| C91 | The check that an integer survives the conversion to a double lets `2^63 - 1` pass (the conversion back saturates): it is filed under, and equal to, `2^63` | `C91_largest_integer_rounded` |
| C94 | After an interrupted write of the pivot file preparation fails for ever: the file exists, so nothing is trained, and it cannot be loaded | `C94_stuck` |
| C94 | `generate_pq_pivots` on top of an interrupted write reports success and leaves a file that cannot be loaded: the existing metadata is all it looks at | `C94_success_without_table` |
| C94 | An existing pivot file is used although its dimension is not that of the data | `C94_dimension_not_checked` |
| C95 | The documentation says that an existing compressed file is validated against the resume offset; an empty file is accepted and the skipped vectors get zero codes | `C95_not_validated` |
| C95 | The tool that builds product quantization reads the data file as `f32` whatever its element type; on one-byte elements it never succeeds | `C95_tool_element_type` |
| C96 | The documentation says that stages are numbered from 0 without gaps; any numbers are accepted | `C96_gaps_accepted` |
| C96 | The documentation says that a wrong number of points is corrected; one that is too large is kept | `C96_too_many_points_kept` |
| C96 | Negative tags and numbers of points are accepted as numbers near 2^64 | `C96_negative_accepted` |
| C96 | A replacement with more tags than vectors is accepted | `C96_replacement_lengths` |
| C97 | With deferred reuse a tag that is deleted and inserted again before maintenance loses its slot: the next search for it fails | `C97_reinsertion_lost` |
| C97 | The headroom for deferred maintenance does not suffice for a threshold of one half: a valid runbook runs out of slots | `C97_half_runs_out` |
| C97 | The streaming benchmark of the bf-tree hands out the slot of a start point when there are two or more | `C97_start_point_overwritten` |
| C97 | A runbook that needs more data than the data set has is not refused; execution panics | `C97_short_data_panics` |
| C97 | The number of active slots is one too large | `C97_active_off_by_one` |
| C98 | Insertions beyond the end of the data are ignored without an error, so the ground truth misses tags | `C98_short_data_ignored` |
| C98 | A replacement with fewer vectors than tags drops the other tags from the ground truth | `C98_replacement_drops` |
| C98 | Tags are cut to 32 bits: with more than 2^32 vectors a tag replaces another | `C98_tags_cut` |
| C99 | Deletions are lost: a deleted point is present again after saving and loading | `C99_deletions_lost` |
| C99 | Setting a vector that cannot be compressed returns an error but leaves a code mixed from two vectors | `C99_torn_code` |
| C99 | The graph has a list for one id more than there are vectors | `C99_extra_list` |
| C99 | Start points can be deleted and overwritten like any point | `C99_start_not_protected` |
| C99 | An index with several start points cannot be saved | `C99_several_starts_not_saved` |
| C99 | More than 2^32 points: the capacity is cut and start points are ordinary ids | `C99_capacity_cut` |
| C100 | medoid of a data set with a value that is not finite: the zero vector is returned instead of a vector of the data or an error | `C100_medoid_not_finite` |
| C100 | medoid of an empty data set: a zero vector, where the other strategies report an error | `C100_medoid_empty` |
| C100 | latin hypercube of more points than vectors: panics on an empty range, where random samples report `NotEnoughTrainingData` | `C100_latin_panics` |
| C100 | `max_sample_size`: "maximum number of vectors to sample": it sets a rate; any number of vectors can be drawn | `C100_sample_above_maximum` |
| C100 | medoid by sampling: if no vector is drawn the call fails on good data | `C100_sample_empty` |
| C100 | medoid of a file that lost its end: accepted, and the sum is divided by the number in the header | `C100_truncated_medoid` |
| C100 | random integer vectors with an approximate norm: the zero vector for every norm below one | `C100_random_zero` |
| C101 | a data file with fewer rows than the index has points, or more: the build succeeds, with points missing or rows left out | `C101_count_not_checked` |
| C101 | points and start point are 2^32: every id fits, but the final prune fails after all insertions because the end of the range does not | `C101_prune_too_many` |
| C102 | maximum degree "calculated as `floor(pruned_degree * slack)`": the product is rounded before; 30 with the default slack gives 39, where the product is below 39 | `C102_slack_not_floor` |
| C102 | a slack of one, with a pruned degree of 2^25 + 1: refused, as the maximum degree comes out smaller | `C102_slack_one_refused` |
| C102 | a back-edge ratio of one, with a pruned degree of 2^25 + 3: refused, as it comes out larger | `C102_ratio_one_refused` |
| C102 | `max_occlusion_size` "must be non-zero and not exceed `u32::MAX`": above 16 bits it is refused | `C102_occlusion_limit` |
| C102 | `alpha`: any value is accepted, also NaN or below one | `C102_alpha_not_checked` |
| C102 | retry threshold "relative to the `max_degree`": it is an absolute number; above the pruned degree every insertion makes all attempts | `C102_threshold_above_degree` |
| C103 | A fixed build without a batch size and with more tasks than points calls the builder with an empty range, though builders "may assume that the range is non-empty" (build/api.rs:40–42, 482–484) | `C103_fixed_empty` |
| C103 | `Chunks::next` adds the batch size without a check (build/api.rs:549), so a huge batch size makes a fixed build fail (or, without overflow checks, hand out wrong ranges), while dynamic balancing saturates | `C103_fixed_overflow` |
| C103 | "When the batchsize is 1, the implementation guarantees sequential execution": with several tasks two batches are in work at once; it is one task that gives the order (`C103_dynamic_one_task`) | `C103_batch_one_parallel` |
| C104 | If no start point has an attribute the search returns nothing, whatever the graph and the parameters (ids without attribute never enter the list, so nothing is expanded) | `C104_no_attribute_start` |
| C104 | A vertex reachable only through a vertex without attribute is never returned, for every list size | `C104_hidden` |
| C104 | Start points take places on the list and of their attribute and are dropped afterwards, so fewer than total_k results come back although enough are reachable; the plain search makes room for them | `C104_start_takes_place`, `C104_start_takes_attribute` |
| C104 | The declared error for a per-attribute limit above the number of results is never raised | `C104_declared_error_never` |
| C105 | With fewer than 50000 configured points every vector is sampled, but the sizes of the shards are divided by a rate above one: shards with two thirds of the vectors are accepted under a limit that they exceed many times over. | `C105_over_budget` |
| C105 | The search for a number of shards never ends if the copies of one vector alone exceed the limit, or the limit is below the estimate for one vector: copies always go to the same shards. | `C105_never_ends`, `C105_copies_never_end` |
| C105 | Shards can be empty, all but two of them if the vectors are equal; an empty shard makes the build fail. | `C105_empty_shards` |
| C105 | A sample without vectors for testing is a division by zero. | `C105_empty_test_panics` |
| C105 | Zero chunks are reported as a dimension of zero, not as out of range. | `C105_zero_chunks` |
| C106 | A removal that fails to delete the mapping to the internal id frees the id all the same: once it is reused the removed element exists again with the vector of another one, and removing it removes the other one. | `C106_lost_mapping_refuted` |
| C106 | A failed insertion may have added the element, or leave its vector and name under a free id where searches find it; a failed removal may leave an element that does not exist, cannot be removed, and is still reported. | `C106_failed_insert_refuted`, `C106_failed_insert_reported_refuted`, `C106_failed_remove_reported_refuted` |
| C106 | An element inserted twice (the check and the insertion are two calls) is reported twice; after its removal the old vector is reported for ever. | `C106_twice_refuted`, `C106_orphans_stay` |
| C106 | The cardinality is the largest internal id, not the number of elements: it does not fall when elements are removed. | `C106_count_refuted` |
| C107 | Internal id zero stays taken when making the start point fails, and only id zero is accepted: after one failed storage call in the first insertion every later insertion fails, also after restarts. | `C107_failed_for_ever` |
| C107 | If the failure came after the vector was written, the set cannot be opened any more. | `C107_no_index_refuted` |
| C108 | One removed element in the list of neighbours of another makes listing its neighbours fail as a whole. | `C108_dangling` |
| C108 | A draw of random members answers true without saying how many it wrote; no member and a member with an empty name look the same. | `C108_random_members_silent` |
| C109 | After a restart between the training and the end of the backfill the set never works with codes again: training and backfilling answer false for ever, new vectors get no codes and ids are never reused, while each restart reports that quantization is needed. | `C109_restart_refuted` |
| C109 | The documentation of the training call says it may be invoked again if it returns false; if the state could not be written it returns false for ever (until a restart). | `C109_retry_refuted` |
| C109 | A code that cannot be written during the backfill is skipped; the calls answer true and the vector cannot be found by searches. | `C109_failed_write_refuted` |
| C109 | If the code of the start point cannot be written the set works with codes, but cannot be opened after a restart. | `C109_start_point_refuted` |
| C109 | A task that is started twice counts twice: the set works with codes although another task never ran. | `C109_same_task_refuted` |
| C110 | The number of bytes read is not checked: at the end of a truncated file a read succeeds and the buffer keeps what it held (the reader for data in memory panics instead). | `C110_short_refuted` |
| C110 | A failed read leaves the other results of its batch in the completion queue. The next call with this reader (readers are pooled and used again) counts them, may return success before its own reads are done, and the kernel writes into its buffers afterwards. | `C110_after_error_refuted`, `C110_left_over` |
| C110 | If a signal ends the wait after requests were submitted, the call succeeds without its reads being done. | `C110_signal_refuted` |
| C110 | The code of a failed read is passed on with the wrong sign, so no error of the system can be recognised. | `C110_error_code_refuted` |
| C111 | An owning pointer to a value without size drops the value when it is made (it is not moved anywhere) and again when the pointer is dropped. | `C111_new_refuted` |
| C112 | the inputs recorded in the before and after files are never compared with the input file or with each other: results of other inputs, or in another order, are checked without a complaint | `C112_inputs_ignored`, `C112_wrong_results_refuted` |
| C112 | a check takes the best benchmark among those with the tolerance, while `run` takes the best of all, so the results may come from a benchmark other than the one that checks them | `C112_other_benchmark_refuted` |
| C112 | two benchmarks with different tolerance types of the same tag register without an error (input types are checked, tolerance types are not); every check of the second ends in an internal error | `C112_tolerance_type_refuted` |
| C112 | the output file is documented to be written regardless of the outcome; a tolerance that does not serialize ends the run before it is written | `C112_output_refuted` |
| C113 | a run killed in a save leaves `<output>.temp`; every later run does its first job and then fails | `C113_restart_refuted`, `C113_stuck` |
| C113 | the test for the temporary file and its creation are two steps: two saves at the same time leave a mixed output file and one of them reports success | `C113_two_writers_refuted` |
| C115 | The id of a removed element is free before its removal has repaired the graph: an insertion that gets it loses its edges and its list to the rest of the removal, no search can reach the new element, and all calls answered true. | `C115_reuse_refuted` |
| C115 | Two removals of one element at once and an insertion of another one: the slower removal deletes the vector and name of the new element and frees its id. | `C115_double_remove_refuted` |
| C115 | Lists are read and written later: the only edge to a new element can be overwritten by a removal that had read the list before. | `C115_lost_edge_refuted` |
| C116 | The reverse mapping is written last: a document whose insertion failed is found by queries, its deletion answers Ok, and no deletion ever removes it. | `C116_orphan_refuted` |
| C116 | After a failed insertion, a successful update to other labels leaves the document under the old ones too. | `C116_stale_refuted` |
| C116 | An update that fails between deletion and insertion loses the document: it is found under neither its old nor its new labels. | `C116_lost_refuted` |
| C116 | A posting list that outgrows the largest record (4 KB in `BfTreeStore`) makes every later insertion with that label fail, and each failing insertion leaves the document under its other labels for good. | `C116_full_label`, `C116_full_refuted` |
| C117 | The comment of `set_element` says a failed write of the code at worst leaves a vector not yet in the codes. If the id had a vector before, the code of the old vector stays with the new vector. | `C117_stale_refuted` |
| C117 | Deleting the id of a start point is accepted, and every later search fails. | `C117_start_deleted_refuted` |
| C117 | While a deletion is under way the code is there without its vector (searches over codes report the id, reranking drops it). | `C117_ghost_refuted` |
| C118 | A save over an existing index that is cut off between two files leaves new vectors with old neighbours (or codes), and loading succeeds. | `C118_crash_refuted` |
| C118 | A save without `use_snapshot` answers with an error after it has replaced the parameters of the saved index, which then loads with the wrong parameters. | `C118_failed_refuted` |
| C118 | The trees are loaded from the prefix written in the parameters: a copied or moved index opens the files of the original. | `C118_copy_refuted` |
| C118 | The trees are written to the file system whatever the storage provider is: two storages with the same prefix share them. | `C118_storage_refuted` |
| C118 | The saved element type is not compared on load: an index of u8 vectors loads as i8. | `C118_dtype_refuted` |
| C118 | No lock is held between the snapshots: an index saved while calls run may never have existed. | `C118_moment_refuted` |
| C120 | with inner-product (negative) distances a factor below one moves matching vectors behind: the nearest, matching vector is not returned | `C120_negative_refuted` |
| C120 | the layer does not forward `terminate_early`, so a search that would stop early goes on (the label filter and the encoded accessor do forward it) | `C120_stop_refuted` |
| C120 | any factor is accepted by the layer, and the check of the benchmark lets NaN pass | `C120_factor_refuted` |
| C121 | a search that fills its output reports one result less than it has written: `push` answers `Full` after writing the last place and `post_process` does not count that write | `C121_count_refuted` |
| C121 | `inplace_delete` drops the adjacency list of the slot after `delete` has given the slot back; an insertion that has taken the slot meanwhile loses its edges | `C121_reuse_refuted` |
| C123 | `SQ { standard_deviation: None }` is stored as `SQ_8_None`, which deserialization refuses: a configuration with the default deviation cannot be read back | `C123_default_deviation_lost` |
| C123 | `PQ { num_chunks: 0 }` can be built and stored, but is refused when read | `C123_zero_chunks_refused` |
| C124 | the mean is taken of a 64-bit sum that wraps in release builds (and panics in debug builds), so the mean can be below every sample | `C124_mean_refuted` |
| C124 | a benchmark run whose smallest latency rounds to 0 microseconds fails the regression check against an identical result | `C124_same_refuted` |
| C125 | without overflow checks `NBITS * dim` wraps: a slice holding only the metadata is accepted as a vector of 2^61 eight-bit codes by the safe constructors, and reading any code is out of bounds | `C125_overflow_refuted` |
| C125 | the same for `SliceRef::from_canonical`: an empty aligned slice is accepted as 2^61 eight-byte elements | `C125_slice_overflow_refuted` |
| C125 | `MinMaxElement::from_raw` is documented to refuse a slice whose length does not match the declared dimension; longer slices are accepted | `C125_minmax_length_refuted` |
| C125 | for a slice that is too short the error reports the actual length as the expected one and vice versa | `C125_minmax_error_refuted` |
| C126 | With `allow_rescale` and the inner product, `rescale` divides by the norm of the query: the zero query is refused as containing a NaN, in every form, while it is accepted without rescaling. | `C126_zero_query_refuted` |
| C126 | With one bit per dimension and nine dimensions, a query in the four-bit transposed form has the size of a full-precision one (48 bytes): when its address is a multiple of four the computer for the wrong form accepts it. The only such coincidence. | `C126_confusion_refuted` |
| C127 | Every block of 131072 rows seeds its generator with 0: row `k + 131072` repeats row `k`, so a large file has at most 131072 different rows. | `C127_repeat_refuted` |
| C127 | A NaN radius passes both checks of the radius (`radius <= 0` and `radius > 127` are false): a file of unsigned bytes is written with nothing but zeros, and the all-zero check lets it through because for this type it looks for a byte other than 128. | `C127_nan_refuted` |
| C128 | An unknown name of a distribution gives an empty file and success. | `C128_unknown_refuted` |
| C128 | `one_per_point` draws from 0 to the number of labels minus one, while 0 stands for "no label" in the other distributions and the last label never occurs. | `C128_one_refuted` |
| C128 | `one_per_point` with no labels panics, the other distributions write zeros. | `C128_no_labels_refuted` |
| C128 | An empty query does not match everything: it demands an empty label. | `C128_empty_query_refuted` |
| C129 | "Down casting to attempt to retrieve the original error type": a context of the same type as the original error is found instead of it. | `C129_original_refuted` |
| C130 | The sum over the neighbours is divided by `recall_at` even if the ground truth has fewer columns: the contrast is too large by `recall_at` over their number. | `C130_short_refuted` |
| C130 | A query equal to its neighbours, zero samples or a zero `recall_at` make the mean infinite or NaN, reported as success. | `C130_finite_refuted` |
| C130 | Dimensions of queries and base are not compared: coordinates in excess are ignored. | `C130_dimension_refuted` |
| C131 | Bytes after the last point are not noticed: a file longer than its header announces is accepted. | `C131_trailing_refuted` |
| C132 | "A ratio between 0.0 and 1.0": the comparison includes equality, so a split of 0 still gives the old schema a vector when the draw is 0. | `C132_zero_refuted` |
| C132 | The dimensions of the two schemas are never compared: the same `set_vector` succeeds or fails with the draw, and no query has a computer. | `C132_dimensions_refuted` |
| C133 | "each job uses a distinct output directory": the same directory spelled with `..` is registered twice. | `C133_parent_refuted` |
| C133 | Without a save path the output directory is accepted even if it does not exist. | `C133_default_refuted` |
| C133 | "resolve `save_path` to an absolute path": with a relative output directory the result is relative. | `C133_absolute_refuted` |
| C133 | `InputFile`: "or points to an existing file relative to the current working directory": the working directory is not looked at. | `C133_working_refuted` |
| C134 | The metadata of a ground-truth file states a number of queries; it is never compared with the number of results read. | `C134_count_refuted` |
| C135 | Recall values of zero alone are accepted; the search then panics, since rows without columns cannot be iterated. | `C135_zero_refuted` |
| C135 | The id is the position cut to 32 bits without a check: in a store of more than 2^32 vectors a wrong vector is named. | `C135_large_refuted` |
| C136 | An attribute called `duration_seconds` replaces the duration of the span. | `C136_duration_refuted` |
| C136 | Spans whose root has not been exported are left out of the tree without an error. | `C136_orphans_refuted` |
| C136 | A span with the invalid id zero and no parent is its own child: the recursion does not end. | `C136_zero_refuted` |
| C136 | Below two spans with one id a child is shown twice. | `C136_twice_refuted` |
| C137 | Ids of documents are not checked: two documents with one id count once as a match and twice as documents, so a filter true everywhere has specificity one half. | `C137_duplicates_refuted` |

Observed while reading, not stated as theorems: `KeyList` decoding reserves `count` entries before checking the length;
`DiverseKGreaterThanTotalK` is never raised; average precision is NaN when no query has ground truth; `BfTreeStore::range`
always errors; C43's `val + 1` wraps instead of panicking in a release build.

## What is modelled and what is not

Modelled, by crate:

* `diskann`: candidate list and diverse candidate list (`neighbor/queue.rs`, `neighbor/diverse_priority_queue.rs`),
  adjacency lists and back-edge buffer, pruning, back-edge update, consolidation, dropping deleted neighbours, in-place
  deletion (single and batch), single insertion after its search, greedy search loop, range search, paged search,
  reachability count, output buffers, working set, async tools (balancer, partition, chunking).
* `diskann-inmem`: epoch-based reclamation, slot tags, free list, id maps, provider set and delete, neighbour lists.
* `diskann-garnet`: free space map with concurrency and restart, backfill ranges, cached start-point list, quantization
  handover.
* `diskann-record`: values, numbers, versions, artifact names, save protocol.
* `diskann-label-filter`: keys, key lists, inverted index, query parser, direct evaluation.
* `diskann-quantization`: bit-packed and bit-transposed slices, k-means heap.
* `diskann-disk`: buffered reader and writer, header, sector layout, vertex provider, static cache, BFS cache.
* `diskann-benchmark-core`: recall and average precision. `diskann-bftree`: neighbour store with its striped locks.

Not modelled: SIMD kernels and distance arithmetic (distances are abstract), IEEE rounding, the async runtime beyond
interleaving, `bf_tree` and `roaring` internals (taken as a map and a set), serde text details (serde_json without
`float_roundtrip` may be an ulp off), fsync and power loss, product and scalar quantization arithmetic, k-means,
benchmark drivers, CLI tools, and debug-only assertions.

Particular limits of single models: the search in front of `insert` and of `VisitedAndTopK` deletion is given as a
result list; C39 assumes that one process saves at a time (`C40_torn_manifest` shows what happens otherwise); C55 reads
of values longer than the read buffer are a panic and its debug-only uniqueness checks are not modelled; C63 covers the
list, not the search loop around it.
