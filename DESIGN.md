# Formal model of rust_graph_lib

The Lean 4 project in `lean/` models the Rust library in `/repo` function by
function and proves the properties listed in `properties.jsonl` about the model.
`MANIFEST.json` maps each property to its theorems. `seeded/LOG.jsonl` records
the wrong programs the theorems were tested against.

## Layout

* `lean/Verif/Model/*`  — the model of the code: total, computable, panics explicit.
  Every definition cites the file and lines it models.
* `lean/Verif/Spec/*`   — small specifications, independent of the model.
* `lean/Verif/Proof/*`  — helper lemmas and invariants.
* `lean/Verif/Props/*`  — the property theorems; beside them `example`s that meet
  their hypotheses.
* `lean/Verif/Tests/*`  — the repository's own tests (`/repo/tests`: `map`,
  `graph_map`, `static_graph`, `converter`, `algorithm`) replayed on the model by
  `decide`. They are tests of the reading of the code, not proofs. The
  mapped adjacency tests run on the file model; the tests with random graphs are
  properties instead (C111).

## Trusted base

* Lean's kernel (4.33.0). No axiom is declared in this project; no `sorry`,
  `admit`, `native_decide` or `bv_decide`.
* The reading of the Rust source by hand. Nothing is extracted mechanically.
  The replayed tests and the seeded bugs are the evidence for it.
* The models of `std` and of the crates the library relies on, see below.

Axioms the theorems of the manifest depend on (`#print axioms`):

* only `propext, Quot.sound`: `c01_setmap_bijection`, `c02_add_item`, `c02_index_stable`, `c03_vecmap_setmap_agree`, `c03_conversions`, `c04_vec_map`, `c08_edge_mut_breaks_symmetry`, `c08_edges_mut_breaks_symmetry`, `c12_edge_count_drifts`, `c13_remove_node_panics`, `c18_eq_not_equality`, `c61_eq_exact`, `c22_from_raw_checks`, `c24_reserved_label`, `c27_undirected_wrong`, `c27_nodes_agree`, `c28_structure_kept`, `c28_edge_labels_gone`, `c31_deterministic`, `c40_labels_collide`, `c45_gnp_panics`, `c70_move_to_panics`, `c48_wrong_graph`, `c49_range_to`, `c55_wrong_graph`, `c73_truncated`, `c73_formats`, `c74_dump_mmap`, `c53_labels`, `c53_represented`, `c79_edge`, `c79_static_node`, `c79_static_nodes`, `c81_frame`, `c81_panics_iff`, `c81_out`, `c81_set_neighbor`, `c81_dangling`, `c81_add_edge`, `c96_failed_export`, `c98_static_phantom`, `c99_unreadable`, `c100_panics`, `c102_gap`, `c103_fed_iff`, `c103_contract_broken`, `c104_flag`, `c112_load`, `c116_no_guard`, `c118_adjacency`, `c118_degree_wraps`, `c118_max_seen`, `c122_same_call`, `c127_grammar`, `c127_unique`, `c127_rewrite`, `c134_answers`, `c149_later`, `c156_node_label`, `c156_no_offsets`, `c156_never_ends`, `c161_gap`, `c162_ends`, `c164_append`, `c165_file`, `c166_string`, `c166_table`, `c166_graph_bytes`, `c166_static_bytes`, `c166_aux_bytes`, `c166_graph`, `c166_static`, `c166_aux`, `c167_apply`, `c167_exec`, `c167_add_node`, `c167_add_edge`, `c167_remove_node`, `c167_remove_edge`, `c167_update_node`, `c167_update_edge`, `c167_add_node_label`, `c167_add_edge_label`, `c167_static_view`, `c167_node_label`, `c167_edge_label`, `c167_equal`, `c167_typed_eq`, `c167_union`, `c167_minus`, `c167_clone`, `c167_reorder_with`, `c167_reorder`, `c167_freeze`, `c168_queries`, `c168_add_node`, `c168_add_edge`, `c168_remove_node`, `c168_remove_edge`, `c168_update_node`, `c168_update_edge`, `c168_apply`, `c168_exec`, `c168_run`, `c168_iso`, `c168_counters`, `c168_equal`, `c168_union`, `c168_minus`, `c168_clone`, `c168_widen`, `c169_queries`, `c169_remove_node`, `c169_remove_edge`, `c169_abs`, `c170_records`, `c174_queries`, `c174_limits`, `c175_length`, `c176_odd`, `c178_unique`, `c178_list`, `c178_endless`, `c178_view`, `c178_mapped_view`, `c178_never_equal`, `c178_lazy`, `c182_max`, `c182_dropped`, `c183_same`, `c184_swap`, `c186_edges_mut`, `c191_loop_bfs`, `c191_loop_dfs`, `c192_eq_refl`, `c192_eq_trans`, `c194_agrees`, `c196_asks`, `c197_graph`, `c197_ends`, `c197_stops`, `c199_figures`, `c200_graphs`.
* only `propext`: `c02_pop_clear`, `c03_duplicates_shift`, `c09_absent`, `c22_from_raw`, `c28_node_labels_gone`, `c28_other_labels_kept`, `c64_clear_rest`, `c64_clear_breaks`, `c49_bytes`, `c49_full_inside`, `c50_undirected_in`, `c52_rows`, `c79_static_edges`, `c102_empty`, `c103_repeats`, `c104_unreadable`, `c104_readable`, `c115_mapped_like`, `c118_no_offsets`, `c120_as_digraph`, `c120_as_mut_graph`, `c121_structure`, `c121_labels`, `c121_tables`, `c121_no_in_edges`, `c121_cleared`, `c123_cascade`, `c123_one_sided`, `c123_underflow`, `c123_update_revives`, `c126_crossing`, `c133_wraps`, `c134_merges`, `c137_files`, `c147_small`, `c147_largest`, `c156_disagree`, `c156_endless`, `c157_same_static`, `c157_same_mapped`, `c158_lopsided`, `c159_halfNamed`, `c162_zips`, `c162_unseen`, `c166_put`, `c166_table_put`, `c166_refused`, `c167_collapse`, `c169_overrun`, `c171_lopsided`, `c171_parts`, `c175_misread`, `c181_torn`, `c183_misread`, `c187_little`, `c187_misread`, `c190_agrees`, `c190_bfs`, `c190_dfs`, `c191_bfs_agrees`, `c191_dfs_agrees`, `c191_healed_bfs`, `c191_healed_dfs`, `c193_agrees`, `c194_late_panic`, `c195_short`, `c196_mapped`, `c196_unaware`, `c197_half`, `c199_mends`.
* only `none`: `c167_view`.
* `propext, Classical.choice, Quot.sound`: every other theorem of the manifest (685 theorems).

## Simplifications

* Ids. Each `IdType` implementor (`()`, `u8`, `u16`, `u32`, `usize`) is
  `Fin (m+1)` with `m` its maximum. `IdType::new` truncates (`Fin.ofNat`).
  Theorems hold for every `m`; label ids likewise for every `k`.
* Panics are values: partial functions return `Except Panic`. `unwrap` on `None`,
  indexing out of range, explicit `panic!`, arithmetic overflow on ids and loops
  that never end are distinct errors. Overflow is that of a debug build; `Model/Release.lean` models the functions that differ in a release build (C117–C119).
* Counters and lengths (`usize`) are unbounded naturals, except where an
  underflow is reachable; then it is an explicit panic.
* `BTreeMap`/`BTreeSet` are sorted lists. `HashMap` is an association list with
  distinct keys; its order is unspecified, so the reachable states are closed
  under permuting the entries at any time (`Run.rehash`).
* `IndexSet` is a duplicate-free list.
* A reachable graph is one obtained from an empty graph, with any duplicate-free
  label maps, by any history of the public mutating calls of the graph
  (`GraphMap.Op`, `GraphMap.Run`). Raw access to a node record is not among them;
  C81 says what it does.
* Randomness is an arbitrary stream given as an argument; theorems quantify over
  all streams.
* Trait objects are records of observations (`GView`); algorithms that take
  `&GeneralGraph` are modelled on these, so their theorems hold for the mutable,
  the frozen and the memory-mapped graph.
* A borrow is the value it points to; a write through a mutable borrow yields the
  new value.
* Hashing: the state of the hasher is the list of words fed to it.
* Files are byte lists in a finite map; the disk may have limited room; a crash
  keeps a prefix of the writes. `BufWriter`, bincode and the csv crate are
  modelled from their documented behaviour and sources of the versions named in
  `Cargo.toml`, since their sources are not in `/repo`. UTF-8
  validity is defined in `Model/Utf8.lean` (C164); the LDBC reader takes it as a
  parameter. Unicode lower-casing enters as a parameter, with only the facts
  stated used.

## What is modelled

Every function of `/repo/src` that computes something is modelled, except:

* logging, timing, capacity and `shrink_to_fit` (no observable effect);
* `Display`/`Debug` output, iterator `size_hint` and laziness;
* plain getters and trait declarations;
* the `()` implementation of `IdType` is the case `m = 0`.

Model files: `Basic` (ids, panics), `Collections` (maps, sets), `LabelMap`
(`/repo/src/map`), `GraphMap` (`graph_impl/graph_map`), `Handles` (`generic/node.rs`,
`generic/edge.rs`), `Reach` (reachable states), `View` (`generic/graph.rs`), `Static`
(`graph_impl/static_graph`, `into_static`), `Reorder` (`reorder_id`, `merge_map`),
`Traversal`, `ConnComp`, `SetOps` (`algorithm`), `Gen` (`graph_gen`), `Serde`, `Disk`,
`Mmap`, `Csv`, `CsvFiles`, `Names`, `Ldbc` (`io`), `MapEq` (comparing and hashing label
maps), `Capacity` (the 64-bit capacity and the restarts of searches), `Guard` (the `RefCell` of `ConnComp`), `Boxed` (`Box<GeneralGraph>`, `as_graph` and
its relatives), `Release` (release builds), `Checked` (the 64-bit edge counter), `Calls` (frozen graphs without edge enumeration), `Caught`, `CaughtRelease` (caught
panics).

## Per property

| Property | Status | What is modelled | How it is proved | Theorems (`Verif.Props.`) | Remark |
|---|---|---|---|---|---|
| C01 Label interning is a bijection | proved | `LabelMap`: `SetMap`, `VecMap` with the code's operations | invariant (distinct labels) by induction over operation histories; simulation between the two maps | `c01_setmap_bijection` |  |
| C02 Interned ids are stable | proved | `LabelMap`: `SetMap`, `VecMap` with the code's operations | invariant (distinct labels) by induction over operation histories; simulation between the two maps | `c02_add_item`, `c02_pop_clear`, `c02_index_stable` |  |
| C03 VecMap and SetMap are interchangeable | proved | `LabelMap`: `SetMap`, `VecMap` with the code's operations | invariant (distinct labels) by induction over operation histories; simulation between the two maps | `c03_vecmap_setmap_agree`, `c03_conversions`, `c03_duplicates_shift` |  |
| C04 Bulk label construction keeps first-occurrence order | proved | `LabelMap`: `SetMap`, `VecMap` with the code's operations | invariant (distinct labels) by induction over operation histories; simulation between the two maps | `c04_bulk_construction`, `c04_vec_map` |  |
| C05 Node lookups follow the history | proved | `GraphMap`: state, all mutators, label interning | refinement: an abstraction to a pair of finite maps, induction over histories | `c05_has_node`, `c05_node_label` | has_node for all histories; labels for histories that name labels (raw label-id writes are C56) within label-id capacity |
| C06 Edge lookups follow the history | proved | `GraphMap`: state, all mutators, label interning | refinement: an abstraction to a pair of finite maps, induction over histories | `c06_has_edge`, `c06_edge_label` | as C05 |
| C07 Return values report what happened | proved | return values of the mutators | per operation on states that satisfy the representation invariant | `c07_add_node`, `c07_add_edge`, `c07_update_node_label`, `c07_update_edge_label`, `c07_remove_edge`, `c07_remove_node` | remove_node on a self loop panics: C59 |
| C08 Undirected edges are symmetric | partial | undirected insertion and removal | invariant; negation by a witness for raw label writes | `c08_has_edge_symmetric`, `c08_labels_symmetric_partial`, `c08_edge_mut_breaks_symmetry`, `c08_edges_mut_breaks_symmetry` | symmetric labels are proved for histories without raw writes through get_edge_mut/edges_mut; with them the property is false (witnesses) |
| C09 Neighbour lists describe the edge relation | proved | adjacency, in-adjacency, enumerations | representation invariant by induction over histories and rehashings | `c09_neighbors`, `c09_in_neighbors`, `c09_absent` |  |
| C10 No dangling edges | proved | adjacency, in-adjacency, enumerations | representation invariant by induction over histories and rehashings | `c10_no_dangling` |  |
| C11 Enumerations are complete and duplicate free | proved | adjacency, in-adjacency, enumerations | representation invariant by induction over histories and rehashings | `c11_nodes`, `c11_edges` |  |
| C12 edge_count is the number of edges | partial | `num_of_edges` | exact drift by induction over histories; negation by a witness | `c12_edge_count_partial`, `c12_edge_count_drifts` | false in general (witness); true for histories without redundant insertions; exact value in C60 |
| C13 Mutators do not panic | partial | panics of mutators | the invariant implies safety except for `remove_node` on a self loop | `c13_mutators_partial`, `c13_remove_node_panics` | false for remove_node on a self loop (witness, exact characterisation in C59) |
| C14 max_seen_id is the high-water mark | proved | `max_id` | induction over histories | `c14_max_seen_id`, `c14_monotone`, `c14_bounds_present` |  |
| C15 Handshake identities | proved | degrees | double counting from the invariant | `c15_handshake_directed`, `c15_handshake_undirected` |  |
| C16 Label ids are canonical | proved | label ids | invariant on the label maps; witness for wrap-around | `c16_node_label_ids`, `c16_edge_label_ids`, `c16_overflow_collides`, `c16_edge_overflow_collides` |  |
| C17 remove_node returns a faithful record | proved | `remove_node` | frame theorem from the refinement | `c17_remove_node` |  |
| C18 GraphMap equality means same graph | partial | `View`: `PartialEq`, `Hash`, `equal` on typed and boxed graphs | characterisation for all pairs of graphs; negations by witnesses | `c18_eq_partial`, `c18_eq_not_equality` | false as stated (C61 has the exact behaviour); proved for graphs with equally many nodes and edges |
| C19 Equal graphs hash equally | partial | `View`: `PartialEq`, `Hash`, `equal` on typed and boxed graphs | characterisation for all pairs of graphs; negations by witnesses | `c19_same_graph_same_hash`, `c19_boxed_hash_partial`, `c19_typed_hash_partial`, `c19_equal_hash_differs`, `c19_boxed_hash_differs` | false for the typed == and for boxed graphs with drifted edge_count; the same labelled graph always hashes alike |
| C20 generic equal decides graph equality | partial | `View`: `PartialEq`, `Hash`, `equal` on typed and boxed graphs | characterisation for all pairs of graphs; negations by witnesses | `c20_equal_views_partial`, `c20_equal_partial`, `c20_equal_misjudges` | needs exact edge counts, otherwise false (witness) |
| C21 Label counters count | proved | `View`: the four label counters | counting lemmas over the enumerations | `c21_node_label_counter`, `c21_edge_label_counter`, `c21_node_label_id_counter`, `c21_edge_label_id_counter`, `c21_listed_node_labels`, `c21_listed_edge_labels` |  |
| C22 Binary search and CSR lookup are exact | proved | `Static`: `EdgeVec`, slice `binary_search`, the edge iterator with explicit state | loop invariant; specification by rows (`Spec.Encodes`) | `c22_binary_search`, `c22_from_raw`, `c22_from_raw_checks`, `c22_counts`, `c22_neighbors`, `c22_has_edge`, `c22_find_edge_index`, `c22_find_edge_label_id` |  |
| C23 Static edge iteration is exact | proved | `Static`: `EdgeVec`, slice `binary_search`, the edge iterator with explicit state | loop invariant; specification by rows (`Spec.Encodes`) | `c23_edge_iteration`, `c23_more_fuel` |  |
| C24 Freezing keeps the graph | proved | `Static`: the loop of `into_static` with all its locals | loop invariant over ids, refinement of the queries | `c24_into_static_keeps_graph`, `c24_shows`, `c24_reserved_label` |  |
| C25 Freezing sparse ids | proved | `Static`: the loop of `into_static` with all its locals | loop invariant over ids, refinement of the queries | `c25_sparse`, `c25_gap` |  |
| C26 into_static fails exactly on the empty graph and the largest id | proved | `Static`: the loop of `into_static` with all its locals | loop invariant over ids, refinement of the queries | `c26_into_static_succeeds_iff`, `c26_failures` |  |
| C27 Static edges() agrees with get_edge | partial | `Static`: `nodes`, `edges`, label removal, default counts | from C22/C23; negation by a witness for C27 | `c27_edges_agree_partial`, `c27_undirected_wrong`, `c27_nodes_agree` | false for labelled undirected graphs (witness); proved for directed or unlabelled ones |
| C28 Static label removal only removes labels | proved | `Static`: `nodes`, `edges`, label removal, default counts | from C22/C23; negation by a witness for C27 | `c28_structure_kept`, `c28_node_labels_gone`, `c28_edge_labels_gone`, `c28_other_labels_kept` |  |
| C29 Reordering is an isomorphism | proved | `Reorder`: `reorder_id`, `merge_map`, `reorder_map`, `reorder_with` | explicit permutation from the code's sort; isomorphism theorem; exact panic conditions | `c29_reorder_isomorphism`, `c29_reorder_history` | label ids must be label indices and one per undirected edge where label ids are reordered (always so for histories that name labels); otherwise it panics (c65_*) |
| C30 Reordering sorts | proved | `Reorder`: `reorder_id`, `merge_map`, `reorder_map`, `reorder_with` | explicit permutation from the code's sort; isomorphism theorem; exact panic conditions | `c30_reorder_ids`, `c30_reorder_sorted`, `c30_reorder_node_labels`, `c30_reorder_edge_labels` |  |
| C31 BFS visits everything once | proved | `Traversal`: `Bfs`, `Dfs`, one `next` at a time | invariant on queue/stack and visited set; reachability and distances defined inductively | `c31_bfs_visits_once`, `c31_new`, `c31_deterministic` |  |
| C32 BFS is breadth first | proved | `Traversal`: `Bfs`, `Dfs`, one `next` at a time | invariant on queue/stack and visited set; reachability and distances defined inductively | `c32_bfs_breadth_first` |  |
| C33 DFS visits everything once | proved | `Traversal`: `Bfs`, `Dfs`, one `next` at a time | invariant on queue/stack and visited set; reachability and distances defined inductively | `c33_dfs_visits_once` |  |
| C34 DFS order is depth first | partial | `Traversal`: `Bfs`, `Dfs`, one `next` at a time | invariant on queue/stack and visited set; reachability and distances defined inductively | `c34_dfs_depth_first_partial`, `c34_dfs_first_seen_partial`, `c34_not_depth_first` | false of the code in general (c34_not_depth_first: nodes are marked when pushed); proved for graphs without cycles, and in general with respect to the first visited node leading to c; exact order in C66 |
| C35 ConnComp decides connectivity | proved | `ConnComp`: union by size with path halving in a parent map | invariant: parents form a forest whose classes are the connected pairs; independence of order | `c35_process_total`, `c35_is_connected`, `c35_graph` |  |
| C36 ConnComp counts components | proved | `ConnComp`: union by size with path halving in a parent map | invariant: parents form a forest whose classes are the connected pairs; independence of order | `c36_count`, `c36_connected_nodes`, `c36_graph` |  |
| C37 Root queries are total and invisible | proved | `ConnComp`: union by size with path halving in a parent map | invariant: parents form a forest whose classes are the connected pairs; independence of order | `c37_parent`, `c37_root`, `c37_unknown_panics`, `c37_query_invisible` | get_root panics exactly for nodes never seen on an edge |
| C38 Connectivity is order independent | proved | `ConnComp`: union by size with path halving in a parent map | invariant: parents form a forest whose classes are the connected pairs; independence of order | `c38_order_independent` |  |
| C39 ConnSubgraph partitions the graph | proved | `connected_components`-style grouping on graphs | from C35–C37 | `c39_components`, `c39_partition`, `c39_isolated_panics` | with an isolated node the call panics (c39_isolated_panics) |
| C40 graph_union is a right-biased union | partial | `SetOps`: `graph_union`, `graph_minus`, boxed `clone` | refinement to union and difference of labelled graphs; witness for collisions | `c40_union_partial`, `c40_labels_collide` | false when the labels of both graphs do not fit the label-id type (c40_labels_collide); proved when they fit; structure in every case in C68 |
| C41 graph_minus keeps the rest | proved | `SetOps`: `graph_union`, `graph_minus`, boxed `clone` | refinement to union and difference of labelled graphs; witness for collisions | `c41_minus` | including the exact panic condition |
| C42 Cloning a boxed graph gives an equal graph | proved | `SetOps`: `graph_union`, `graph_minus`, boxed `clone` | refinement to union and difference of labelled graphs; witness for collisions | `c42_clone`, `c42_clone_equal` |  |
| C43 Generated graphs have the promised shape | proved | `Gen`: all generators with the random stream as argument | for every stream; and for every outcome a stream that produces it | `c43_empty_graph`, `c43_complete_graph` | sizes that fit the id type; beyond that C71 |
| C44 G(n,m) has exactly m edges | proved | `Gen`: all generators with the random stream as argument | for every stream; and for every outcome a stream that produces it | `c44_gnm`, `c44_gnm_too_many` |  |
| C45 G(n,p) is a simple graph | partial | `Gen`: all generators with the random stream as argument | for every stream; and for every outcome a stream that produces it | `c45_gnp_partial`, `c45_gnp_panics` | 'panics exactly for p outside [0,1]' is false for NaN, see C69; everything else proved |
| C46 Binary export/import round trips | proved | `Serde`: bincode of every exported type, byte by byte | decoder inverts encoder; every proper prefix is refused | `c46_set_map`, `c46_vec_map`, `c46_graph_map`, `c46_any_order`, `c46_static_graph`, `c46_frozen` | bincode byte format modelled; sizes below 2^64; label codec hypotheses only for labels present |
| C47 Memory-mapped round trip | proved | `Mmap`: `TypedMemoryMap`, dump, load and the queries of `StaticGraphMmap` | refinement against the frozen graph; crash points as prefixes of the file writes | `c47_round_trip`, `c47_no_edges` | for every frozen reachable graph with an edge; without edges loading panics |
| C48 Dump overwrites | partial | `Mmap`: `TypedMemoryMap`, dump, load and the queries of `StaticGraphMmap` | refinement against the frozen graph; crash points as prefixes of the file writes | `c48_overwrite_partial`, `c48_leftover_in_edges`, `c48_wrong_graph` | false in general; proved when no file is left that the new dump does not write |
| C49 Byte dump is complete and typed views stay in bounds | proved | `Mmap`: `TypedMemoryMap`, dump, load and the queries of `StaticGraphMmap` | refinement against the frozen graph; crash points as prefixes of the file writes | `c49_dump`, `c49_bytes`, `c49_full_inside`, `c49_round`, `c49_range_from`, `c49_range_to`, `c49_pieces` | map[..e] is never refused: it is inside the file exactly if e <= len |
| C50 Mmap and in-memory static graphs answer alike | proved | `Mmap`: `TypedMemoryMap`, dump, load and the queries of `StaticGraphMmap` | refinement against the frozen graph; crash points as prefixes of the file writes | `c50_answers`, `c50_frozen`, `c50_undirected_in` | get_edge shares the exception of has_edge |
| C51 CSV round trip | proved | `Csv`: the csv crate's writer and reader as automata over bytes, the record visitors | automaton invariant; round trip for every separator, label and graph | `c51_round_trip`, `c51_empty_labels`, `c51_graph_map`, `c51_empty_label_lost` | csv crate modelled byte by byte; labels take one field |
| C52 CSV reader skips bad rows only | proved | `Csv`: the csv crate's writer and reader as automata over bytes, the record visitors | automaton invariant; round trip for every separator, label and graph | `c52_nodes`, `c52_edges`, `c52_nodes_plain`, `c52_edges_plain`, `c52_read`, `c52_bad_row`, `c52_bad_edge_row`, `c52_rows`, `c52_empty_label_depends` | rows are CSV records: an unclosed quote swallows the rest of the file; with headers for a usable header, see C76 |
| C53 LDBC ids are dense and injective | proved | `Ldbc`: scheme, file-name patterns, node and relation loading | events read from the files; counting and induction over events | `c53_loaded`, `c53_needed`, `c53_too_many`, `c53_order`, `c53_labels`, `c53_represented`, `c53_injective`, `c53_collision`, `c53_unit_id` | for ids other than (); kind names are followed by digits, otherwise keys can collide; labels must fit the label ids |
| C54 LDBC loads each record once | partial | `Ldbc`: scheme, file-name patterns, node and relation loading | events read from the files; counting and induction over events | `c54_once_partial`, `c54_edge_count`, `c54_doubled`, `c54_same_graph`, `c54_twice` | false for the two relations registered twice, which c54_doubled and c54_twice state; proved for all others |
| C55 Crash during dump | partial | `Mmap`: `TypedMemoryMap`, dump, load and the queries of `StaticGraphMmap` | refinement against the frozen graph; crash points as prefixes of the file writes | `c55_crash_partial`, `c55_wrong_graph` | false in general; holds once the auxiliary file is created |
| C56 Mutable references change one thing | proved | `set_label_id` through handles and the mutable iterators | frame theorems from the refinement | `c56_set_node_label`, `c56_set_edge_label`, `c56_nodes_mut`, `c56_edges_mut` |  |
| C57 Implementation names and separators parse as documented | proved | `Names`, `Csv.separatorOf` | case analysis for all strings | `c57_separator`, `c57_separator_panics`, `c57_names` | lower-casing of non-ASCII characters enters through a table about which only Unicode facts are assumed |
| C58 from_edges builds exactly the listed edges | proved | `from_edges` | refinement by induction over the list | `c58_from_edges` |  |
| C59 remove_node panics exactly on self loops | proved | panics of mutators | the invariant implies safety except for `remove_node` on a self loop | `c59_remove_node_panics_iff` |  |
| C60 edge_count exactly accounts for redundant insertions | proved | `num_of_edges` | exact drift by induction over histories; negation by a witness | `c60_edge_count_exact` |  |
| C61 Typed == is exactly labelled containment | proved | `View`: `PartialEq`, `Hash`, `equal` on typed and boxed graphs | characterisation for all pairs of graphs; negations by witnesses | `c61_eq_is_containment`, `c61_eq_exact`, `c61_graphmap` |  |
| C62 Static edge iteration never ends at the full id range | proved | `Static`: `EdgeVec`, slice `binary_search`, the edge iterator with explicit state | loop invariant; specification by rows (`Spec.Encodes`) | `c62_wraps_forever` |  |
| C63 Default counts of static graphs | proved | `Static`: `nodes`, `edges`, label removal, default counts | from C22/C23; negation by a witness for C27 | `c63_default_counts`, `c63_given_counts`, `c63_constructs` |  |
| C64 A cleared adjacency cannot be queried | proved | `Static`: `EdgeVec`, slice `binary_search`, the edge iterator with explicit state | loop invariant; specification by rows (`Spec.Encodes`) | `c64_clear_rest`, `c64_clear_breaks` |  |
| C65 reorder_id_with panics exactly on uncovered ids | proved | `Reorder`: `reorder_id`, `merge_map`, `reorder_map`, `reorder_with` | explicit permutation from the code's sort; isomorphism theorem; exact panic conditions | `c65_reorder_with_total`, `c65_reorder_with_isomorphism`, `c65_asymmetric_panics`, `c65_unknown_id_panics` |  |
| C66 Complete visiting order of the searches | proved | `Traversal`: `Bfs`, `Dfs`, one `next` at a time | invariant on queue/stack and visited set; reachability and distances defined inductively | `c66_bfs_order`, `c66_dfs_order` |  |
| C67 Dfs reset starts afresh | proved | `Traversal`: `Bfs`, `Dfs`, one `next` at a time | invariant on queue/stack and visited set; reachability and distances defined inductively | `c67_dfs_reset` |  |
| C68 Structure and edge_count of graph_union | proved | `SetOps`: `graph_union`, `graph_minus`, boxed `clone` | refinement to union and difference of labelled graphs; witness for collisions | `c68_union_structure` |  |
| C69 G(n,p) with NaN | proved | `Gen`: all generators with the random stream as argument | for every stream; and for every outcome a stream that produces it | `c69_gnp_nan` |  |
| C71 Generators wrap around when ids run out | proved | `Gen`: all generators with the random stream as argument | for every stream; and for every outcome a stream that produces it | `c71_complete_wraps`, `c71_complete_edges`, `c71_gnm_wraps`, `c71_gnp_wraps`, `c71_empty_wraps` |  |
| C72 Every random outcome is possible | proved | `Gen`: all generators with the random stream as argument | for every stream; and for every outcome a stream that produces it | `c72_gnm_any`, `c72_gnp_any`, `c72_label_any` |  |
| C70 Moving a depth-first search | proved | `Traversal.moveTo`, `Dfs.next` | the nodes discovered before the move stay discovered, so the search runs as on a made-up view without them (`Traversal.part`, `Proof/TraversalPart.lean`) | `c70_move_to`, `c70_move_to_order`, `c70_move_to_panics` |  |
| C73 Cut-off exports are refused | proved | `Serde`: bincode of every exported type, byte by byte | decoder inverts encoder; every proper prefix is refused | `c73_truncated`, `c73_formats`, `c73_graph_map`, `c73_static_graph` |  |
| C74 Which writers report a full disk | proved | `Disk`: `BufWriter` over a disk of limited room | induction over the chunks written | `c74_silent_loss`, `c74_dump_reports`, `c74_dump_mmap` |  |
| C75 Exports do not record directedness | proved | `Mmap`: `TypedMemoryMap`, dump, load and the queries of `StaticGraphMmap` | refinement against the frozen graph; crash points as prefixes of the file writes | `c75_direction_not_stored`, `c75_unreachable` |  |
| C76 A bad CSV header silently reads nothing | proved | `Csv`: the csv crate's writer and reader as automata over bytes, the record visitors | automaton invariant; round trip for every separator, label and graph | `c76_bad_header`, `c76_bad_edge_header`, `c76_read` |  |
| C77 LDBC keeps one edge per pair of nodes | proved | `Ldbc`: scheme, file-name patterns, node and relation loading | events read from the files; counting and induction over events | `c77_last_wins`, `c77_lost` |  |
| C78 LDBC loading outcome | proved | `Ldbc`: scheme, file-name patterns, node and relation loading | events read from the files; counting and induction over events | `c78_outcome`, `c78_events`, `c78_no_directory`, `c78_read_from_path`, `c78_short_header` |  |
| C79 Read handles | proved | `Handles`: every handle type and function | case analysis under the representation invariant | `c79_node`, `c79_edge`, `c79_iter`, `c79_static_node`, `c79_static_edge`, `c79_static_nodes`, `c79_static_edges` | edges() of a frozen labelled undirected graph: see C27 |
| C80 Mutable and owned handles | proved | `Handles`: every handle type and function | case analysis under the representation invariant | `c80_node_mut`, `c80_edge_mut`, `c80_iter_mut`, `c80_owned`, `c80_set` |  |
| C81 Raw access to a node record | proved | `Handles`: `MutNodeMapTrait` on a record in place | frame and effect theorems for every graph | `c81_frame`, `c81_panics_iff`, `c81_out`, `c81_in`, `c81_set_neighbor`, `c81_dangling`, `c81_asymmetric`, `c81_add_edge` |  |
| C82 Labels after any history | proved | all calls of `Op`, label maps; `Spec.Tabled` describes each call over label ids and two label tables | refinement by induction over histories; label-only histories by a second induction relating ids to labels through the final tables | `c82_tables`, `c82_nodes`, `c82_edges` |  |
| C83 Which labels survive a full label-id type | proved | all calls of `Op`, label maps; `Spec.Tabled` describes each call over label ids and two label tables | refinement by induction over histories; label-only histories by a second induction relating ids to labels through the final tables | `c83_node_label`, `c83_edge_label`, `c83_node_label_right_iff`, `c83_edge_label_right_iff`, `c83_labels_symmetric` | extends C05, C06, C08 and C16 past the capacity of label ids |
| C84 What equal and Hash decide | proved | `equal`, `typedEq`, `hashData`, `boxHashData` over any view | the sorted listings fed to the hasher determine the labelled graph; containment plus equal listing sizes is equality | `c84_equal_exact`, `c84_equal_right_iff`, `c84_hash_data_iff`, `c84_boxed_hash_data_iff`, `c84_boxed_hash_alike_iff`, `c84_typed_hash_alike_iff` | exact form of what C18-C20 claim |
| C85 edges() of a labelled static graph | proved | `StaticGraph.edges` over the rows an adjacency encodes | the zip of listed arcs with all stored labels, position by position | `c85_edges`, `c85_agree_iff`, `c85_pairs` | exact form of what C27 claims |
| C86 Labels of graph_union | proved | `graphUnion` | the union is a history of `add_node`/`add_edge`; C82/C83 give labels, an induction over the listings gives the structure | `c86_union_labels` | exact form of what C40 claims on labels |
| C87 graph_union of graphs of different directedness | proved | `graphUnion` | the union is a history of `add_node`/`add_edge`; C82/C83 give labels, an induction over the listings gives the structure | `c87_union_any` |  |
| C88 write_to_csv then read_from_csv | proved | `Csv.writeTo` (two buffered writers over one disk, dropped in reverse order), `Csv.readFrom` | an invariant of the buffered writer: file plus buffer is a beginning of what was pushed; C51/C52 give the graph | `c88_write_read`, `c88_graph_map` | node and edge path differ; labels with empty text are lost, as C51 shows |
| C89 write_to_csv on a full disk | proved | `Csv.writeTo` (two buffered writers over one disk, dropped in reverse order), `Csv.readFrom` | an invariant of the buffered writer: file plus buffer is a beginning of what was pushed; C51/C52 give the graph | `c89_silent_loss`, `c89_beginnings`, `c89_success` |  |
| C90 Outcomes of read_from_csv | proved | `Csv.writeTo` (two buffered writers over one disk, dropped in reverse order), `Csv.readFrom` | an invariant of the buffered writer: file plus buffer is a beginning of what was pushed; C51/C52 give the graph | `c90_panics`, `c90_outcome` |  |
| C91 csv_to_static converts | proved | `Programs.csvToStatic`: argument flags, read, renumber, freeze, export | composition of C52, C29/C30, C26 and C46; bounds on the frozen arrays from the edge count | `c91_unreadable`, `c91_converts_iff`, `c91_converts` | import is shown for dense ids and label tables that fit; the failing cases are C26 and C47 |
| C92 csv_to_static ignores --reorder_labels | proved | `Programs.csvToStatic`: argument flags, read, renumber, freeze, export | composition of C52, C29/C30, C26 and C46; bounds on the frozen arrays from the edge count | `c92_flag_ignored` |  |
| C93 Graphs vary_density exports | proved | `Programs.densityChecks`, `drawEdge`, `drawEdges`, `densify`, `densities`, `densityFile`, `exportAll`, `varyDensity` | an invariant (the graph is the loaded one plus i edges on free pairs) by induction over the loops; free pairs are counted, so a drawn edge uses one up; ending from a stream in which every pair recurs; names are injective in the edge count | `c93_graphs`, `c93_checks` |  |
| C94 vary_density overshoots | proved | `Programs.densityChecks`, `drawEdge`, `drawEdges`, `densify`, `densities`, `densityFile`, `exportAll`, `varyDensity` | an invariant (the graph is the loaded one plus i edges on free pairs) by induction over the loops; free pairs are counted, so a drawn edge uses one up; ending from a stream in which every pair recurs; names are injective in the edge count | `c94_targets` |  |
| C95 When vary_density ends | proved | `Programs.densityChecks`, `drawEdge`, `drawEdges`, `densify`, `densities`, `densityFile`, `exportAll`, `varyDensity` | an invariant (the graph is the loaded one plus i edges on free pairs) by induction over the loops; free pairs are counted, so a drawn edge uses one up; ending from a stream in which every pair recurs; names are injective in the edge count | `c95_ends_iff`, `c95_fair`, `c95_never_ends` | turns of the inner loop are bounded by fuel; the theorems hold for every bound |
| C96 Files vary_density leaves | proved | `Programs.densityChecks`, `drawEdge`, `drawEdges`, `densify`, `densities`, `densityFile`, `exportAll`, `varyDensity` | an invariant (the graph is the loaded one plus i edges on free pairs) by induction over the loops; free pairs are counted, so a drawn edge uses one up; ending from a stream in which every pair recurs; names are injective in the edge count | `c96_failed_export`, `c96_full_disk`, `c96_files` | sizes below 2^64 |
| C97 What was imported can be exported again | proved | `Codec` of every exported type, `World.import`, `World.export` | each codec is closed: what it reads satisfies what its round trip needs, by induction over the format | `c97_set_map`, `c97_vec_map`, `c97_graph_map`, `c97_static_graph` |  |
| C98 import checks nothing | proved | `Codec` of every exported type, `World.import`, `World.export` | each codec is closed: what it reads satisfies what its round trip needs, by induction over the format | `c98_static_counts`, `c98_static_phantom`, `c98_graph_map_any`, `c98_dangling` |  |
| C99 remove_labels | proved | `Programs.load`, `removeLabels`, `redraw`, `variedLabels`, `varyLabels`, `stats` | C97 machinery for the files, C28 for what removing labels keeps, C21/C24 for the counters | `c99_unreadable`, `c99_removes` |  |
| C100 vary_labels | proved | `Programs.load`, `removeLabels`, `redraw`, `variedLabels`, `varyLabels`, `stats` | C97 machinery for the files, C28 for what removing labels keeps, C21/C24 for the counters | `c100_panics`, `c100_varies` | the label table is shorter than 2^64 - 4; ids of at least 15 values |
| C101 Labels reported after vary_labels | proved | `Programs.load`, `removeLabels`, `redraw`, `variedLabels`, `varyLabels`, `stats` | C97 machinery for the files, C28 for what removing labels keeps, C21/C24 for the counters | `c101_reports`, `c101_eleven`, `c101_short`, `c101_long` |  |
| C102 stats | proved | `Programs.load`, `removeLabels`, `redraw`, `variedLabels`, `varyLabels`, `stats` | C97 machinery for the files, C28 for what removing labels keeps, C21/C24 for the counters | `c102_empty`, `c102_counts`, `c102_frozen`, `c102_gap` | the order of the printed lines is not modelled |
| C103 Equality and hash of label maps | proved | `SetMap.same`, `SetMap.fed`, `VecMap.same`, `VecMap.fed` | duplicate-free lists with the same members are permutations; words of one length can be cut back apart | `c103_same_iff`, `c103_histories`, `c103_ids`, `c103_fed_iff`, `c103_contract_broken`, `c103_repeats`, `c103_vec_map`, `c103_vec_map_length` | labels feed the hasher words of one length |
| C104 static_to_mmap | proved | `Programs.load`, `staticToMmap`; `StaticGraph.dumpMmap`, `MmapGraph.new` | the reader never uses the direction; C46 composed with C47 | `c104_flag`, `c104_unreadable`, `c104_readable`, `c104_pipeline` | largest id below the maximum of the id type; sizes below 2^64 |
| C105 static_to_csv | proved | `Programs.staticToCsv` | C75 for what is read, then a view of the halved graph with the same listing, then C88 | `c105_unreadable`, `c105_round_trip`, `c105_directed_halved`, `c105_lost` | node and edge path differ; sizes below 2^64 |
| C106 ldbc_to_graphmap | proved | `Programs.ldbcPath`, `ldbcToGraphMap` | C53/C78 for what is read, C46 for the file, C105 for the CSV files; decimal numbers are injective | `c106_reads_iff`, `c106_unreadable`, `c106_written`, `c106_name`, `c106_pipeline` | sizes below 2^64; no empty labels for the CSV part |
| C107 static_to_csv refuses frozen graphs | proved | `Codec.graphMap`, `Codec.staticGraph`, `Codec.setMap` on bytes written with another codec | the bytes of the one format are cut where the other format reads: third word as an option tag; label table length and low half of the next length as a table of numbers | `c107_static_refused` | largest id below the maximum of the id type |
| C108 Frozen graphs read with other label types | proved | `Codec.graphMap`, `Codec.staticGraph`, `Codec.setMap` on bytes written with another codec | the bytes of the one format are cut where the other format reads: third word as an option tag; label table length and low half of the next length as a table of numbers | `c108_tables`, `c108_unlabelled`, `c108_edge_labels_misread`, `c108_length_for_label`, `c108_node_label_refused` | sizes below 2^64; the refused files have tables of less than 16 GiB |
| C109 Dumping a graph over other files | proved | `StaticGraph.dumpMmap`, `MmapGraph.new` over any disk | what each file holds after the dump: the new bytes, or the old where nothing is written; loading looks at eight files | `c109_loads`, `c109_over`, `c109_right_iff` | arrays not empty; no file of in-edge labels without in-edges; exact counterpart of C48 |
| C110 What loads after an interrupted dump | proved | `StaticGraph.dumpMmap`, `World.dump`, `World.export`, `MmapGraph.new` | the dump is a sequence of file writes that stops where the effects end (`World.writes`); each array is then mapped as a beginning of itself, which `Spec/Crash.lean` computes from the number of effects | `c110_exact`, `c110_arrays_done`, `c110_loses_edges`, `c110_either` | arrays not empty; a crash loses what was not written yet and nothing else; exact counterpart of C55 |
| C111 The randomised tests pass for every outcome | proved | `Gen.gnp`, `gnm`, `emptyGraph`, `completeGraph`, `Csv.writeTo`, `readFrom`, `GView.typedEq` | C43–C45 give the graphs, C61 decides ==; reading into a graph with filled label tables is C51 with another start state | `c111_gnp_zero`, `c111_gnp_one`, `c111_gnm`, `c111_read_into`, `c111_csv` | fewer than 2^31 nodes, so that counts stay in usize; label lists not longer than the label-id type; labels with non-empty texts that parse back |
| C112 Dumps interrupted while writing over another graph | proved | `StaticGraph.dumpMmap`, `MmapGraph.new` over any disk, interrupted anywhere | loading is a function of what each of the eight files shows (`Spec/Overdump.lean`); each write replaces what one file shows by a beginning of the new array; the cases follow by computing that function | `c112_exact`, `c112_load`, `c112_untouched`, `c112_within_offsets`, `c112_within_edges`, `c112_arrays_done` | arrays of the new graph not empty; for the cases with an old graph: it has its auxiliary file and no labels of in-edges without in-edges |
| C113 What a search yields is determined by the graph | proved | `Bfs`, `Dfs` over `GView` | two lists with the properties of C66 have a first difference; both candidates were discovered in the common beginning, so the order relation picks the same one (`Proof/SweepUnique.lean`) | `c113_bfs_order_unique`, `c113_dfs_order_unique`, `c113_bfs`, `c113_dfs` | the searches begin at the same node; without a given start the first node of the enumeration is taken |
| C114 A graph, its frozen form and the mapped one are interchangeable | proved | `GraphMap.view`, `StaticGraph.view`, `MmapGraph.view` | C24, C47 and C51 say all stages show the same abstract graph; C84, C113, C35 and C36 then give the same answers | `c114_interchangeable`, `c114_stages`, `c114_csv` | sizes below 2^64, label tables within the label-id type but for its last value; CSV: no label with an empty text |
| C115 A search of a frozen graph whose ids have gaps | proved | `GraphMap.intoStatic`, `StaticGraph.view`, `Bfs`, `Dfs`, `ConnComp` | a search looks only at ids below the length of its bit set, so it runs as on a made-up view (`Traversal.low`) that satisfies `Shows` (`Proof/FrozenSearch.lean`); C66 then gives the order. Components: C38 on the permuted edges. Mapped graphs: `AnswersLike` gives the same view but for edge queries from ids beyond the rows | `c115_bfs`, `c115_dfs`, `c115_gap`, `c115_components`, `c115_mapped_like`, `c115_mapped_bfs`, `c115_mapped_dfs`, `c115_mapped_components` | mapped: C47 gives AnswersLike for what is loaded |
| C116 A guard kept from parent() blocks path compression | proved | `Model/Guard.lean`: the queries of `ConnComp` with the number of guards kept outside; `mutParent` panics if there is one | the first turn of the loop of `get_root` needs to write unless the node is its own parent; the forest invariant of C35 relates this to the edges processed | `c116_no_guard`, `c116_root`, `c116_is_connected`, `c116_connected_nodes` | the guards a query takes itself end within its statement; checked by reading |
| C117 Release builds of the mutable graph | proved | `Model/Release.lean`: `addEdgeRelease`, `removeNodeRelease`, `removeEdgeRelease`, `updateEdgeLabelRelease`, `refineEdgeCountRelease`, `applyRelease`, `execRelease` | no other part of a call reads the counter (`recount` commutes with every step, `Proof/Release.lean`); the invariant of C60 keeps it from going below zero | `c117_no_underflow`, `c117_step`, `c117_answers`, `c117_run`, `c117_same` | 64-bit usize |
| C118 Release builds of frozen and mapped graphs | proved | `Model/Release.lean`: `intoStaticRelease`, `EdgeVec.*Release`, `StaticGraph.maxSeenIdRelease`, `TypedMap.rangeFromRelease` | the increments of the loop of `into_static` do not wrap below the largest id, and at it the condition `nid <= max_nid` holds for every id; the rest by the arithmetic of wrapping subtraction | `c118_into_static`, `c118_adjacency`, `c118_degree_wraps`, `c118_no_offsets`, `c118_max_seen`, `c118_range_from` | 64-bit usize; arrays and files shorter than 2^64 |
| C119 Release builds run LDBC ids around | proved | `Model/Release.lean`: `Ldbc.nextIdRelease`, `addNodeRelease`, `entryRelease`, `addEdgeRelease`, `fromPathRelease` | simulation of the checked loader; an invariant ties the ids of keys to their order of first mention and the largest id seen (`RInv`), so that the graph is the outcome of a list of calls (`Spec/Release.lean`) | `c119_agrees`, `c119_loaded`, `c119_too_many` | the edge counter is modulo 2^64, see C117 |
| C120 Boxed graphs of different implementations | proved | `Model/Boxed.lean`: `Boxed` with `asDigraph`, `asMutGraph`, `mutate`, `clone`, `eq`, `hashData` | by cases on the implementation, from C09, C24, C42, C47, C114 | `c120_as_digraph`, `c120_in_neighbors`, `c120_as_mut_graph`, `c120_implementation`, `c120_boxed`, `c120_clone`, `c120_eq` |  |
| C121 Writing to the parts of a frozen graph | proved | `Model/Boxed.lean`: `setEdgeVec`, `setInEdgeVec`, `setLabels`, `setNodeLabels`, `setEdgeLabels`, `EdgeVec.default` | definitions unfold; the dump by the characterisation of dumped files behind C47 (`load_after`), which does not look at the type's directedness | `c121_structure`, `c121_labels`, `c121_tables`, `c121_no_in_edges`, `c121_cleared`, `c121_direction`, `c121_turns_directed` |  |
| C122 What a caught panic leaves behind | proved | `Model/Caught.lean`: `applyCaught` and the parts of `remove_node` and `remove_edge` that keep the graph as it was when they panicked | the loop over the neighbours, which are ascending, is described by the list of those before the node itself (`unlinkCaught_spec`) | `c122_same_call`, `c122_only_remove_node`, `c122_first_panic` |  |
| C123 Graphs that go on after caught panics | proved | `Model/Caught.lean`: `Caught`, the states of a program that catches panics | invariant `CInv` (that of `Reachable` without symmetry and closure of edges), kept by every call whether it panics or not (`applyCaught_cinv`); the comparison with the history by simulation in one direction | `c123_remove_node`, `c123_remove_edge`, `c123_panics`, `c123_enumerations`, `c123_nothing_lost`, `c123_nodes`, `c123_dangling`, `c123_cascade`, `c123_one_sided`, `c123_underflow`, `c123_update_revives` | debug builds: arithmetic panics on overflow |
| C124 CSV files without quotes | proved | `Model/Csv.lean`: `Scan`, `parse` | for each state of the scanner, what it reads in terms of the lines of the rest (`records_lines`); core's `List.splitOn` is the specification | `c124_lines`, `c124_line_ends`, `c124_same_graph` | the csv crate's reader is modelled, not verified |
| C125 Searches from given parts | proved | `Dfs.fromParts`, `Dfs.next`, `drain` | every call of `next` yields one waiting entry and turns some set bits into waiting entries, so the number of both falls by one (`Proof/TraversalParts.lean`); a bit beyond the ids cannot be cleared because only bits of ids are | `c125_yields`, `c125_twice`, `c125_never_ends`, `c125_panics` | the panic for an entry that is no node: on GraphMap |
| C126 ConnSubgraph fed other graphs | proved | `ConnSubgraph.empty`, `ConnSubgraph.runEnumeration` | the invariant of C39 (`Sorted`: one graph per root, built by the calls of that root) is kept by further runs; what calls do is C05, C06 and C60 (`Proof/ConnSubgraphRuns.lean`) | `c126_runs`, `c126_panics`, `c126_again`, `c126_crossing` |  |
| C127 CSV files with quotes | proved | `Model/Csv.lean`: `Scan`, `parse` | the grammar is an inductive relation (`Spec/CsvGrammar.lean`); the state machine accepts what it derives, by induction on derivations, and it derives every text, by induction on the length (`Proof/CsvGrammar.lean`) | `c127_grammar`, `c127_unique`, `c127_rewrite`, `c127_same_graph` | the csv crate's reader is modelled, not verified |
| C128 Frozen graphs with gaps, passed on | proved | `Spec/Lists`: `Lists` (what `node_indices`, `edge_indices` and the label queries list, ends of edges not necessarily nodes), `closed` (missing ends added), `renumbered`, `without`. No new model definitions. | Frozen graph: from C25. The copies are runs of `add_node`/`add_edge` calls, computed on the abstract graph without the assumption that ends are nodes; the difference adds removals of edges that survive the removal of nodes. | `c128_frozen`, `c128_mapped`, `c128_union`, `c128_clone`, `c128_minus`, `c128_csv`, `c128_frozen_clone` | Node and edge labels of the frozen graph are assumed to leave one label id free (as in C25); for the union the labels of both must fit the label-id type (as in C40); for the difference both graphs have the same directedness. |
| C129 Copies, frozen forms and searches after caught panics | proved | `Model/Caught.lean` with `cloneBox`, `intoStatic`, `Bfs.next`, `Dfs.next`; no new model definitions. | Copies: C128 with what the invariant of C123 leaves. Frozen form: the rows `into_static` writes need only that invariant. Searches: `max_seen_id` bounds the targets of edges whatever was caught (by induction over the history); the number of waiting entries and set bits falls with each call, and a search that ends has come by every node and every neighbour (`Proof/CaughtSearch.lean`). | `c129_lists`, `c129_clone`, `c129_frozen`, `c129_bfs`, `c129_dfs`, `c129_listed_and_denied` |  |
| C130 What root queries of ConnComp cost | proved | `ConnComp.rootLoop`, `getRoot`, `processEdge`, `isConnected`, `getConnectedNodes`; turns are counted by the fuel the loop needs (`Spec/RootCost.lean`: `Turns`, `Depth`, `Work`). | Turns and halving by induction on the depth. Total: the potential is the sum of the logarithms of the sizes of all trees; a turn at `n` moves the tree of `n` out of that of its parent, which either loses half its size or is twice as large as that of `n`; linking two roots adds at most one logarithm (`Proof/RootCost.lean`). The path: the parent map after each edge is known exactly (`Proof/RootChain.lean`). | `c130_depth`, `c130_turns`, `c130_halved`, `c130_chain`, `c130_total`, `c130_detection`, `c130_calls` | The cost per edge that the documentation gives is refuted by c130_chain; its total is proved. Resets are left out: after one, counting starts again. |
| C131 A search at any moment | proved | `Bfs.next`, `Dfs.next`, `Traversal.new`; `Moment` (Props/SearchMoment.lean) says what the state holds in terms of the abstract graph. | The invariant of C31 along any number of calls (`Proof/SearchMoment.lean`); the reads by counting the neighbour lists of all nodes. | `c131_bfs`, `c131_dfs`, `c131_reads` |  |
| C132 From CSV files to a mapped graph | proved | `csvToStatic`, `staticToMmap`, `MmapGraph.new` (Model/Programs.lean, Model/Mmap.lean); no new model definitions. | C91 for the first program, C108 for reading its file with other label types, C48 for dumping and loading; with empty label tables the retyped graph shows the same nodes and edges (`bared_shows`). | `c132_chain` | Labelled files are C108: the second program reads tables of text as tables of numbers. |
| C133 Caught panics in release builds | proved | `removeNodeCaughtRelease`, `removeEdgeCaughtRelease`, `applyCaughtRelease`, `CaughtRelease` (Model/CaughtRelease.lean): the calls of C122 with the wrapping arithmetic of C117. | Each release call is the checked call on the same graph with another counter (`Proof/CaughtRelease.lean`); what the checked calls do is C123. | `c133_step`, `c133_history`, `c133_panics`, `c133_counter`, `c133_answers`, `c133_same_count`, `c133_wraps` |  |
| C134 Reordering with a map that has repeats | proved | `reorderIdWithVec` (Model/Reorder.lean): `reorderIdWith` on the entries of the `VecMap`s, justified by `c134_answers`. | The proof of C65 only needs that first positions differ and fit the id type; panics by going through the loops. | `c134_answers`, `c134_total`, `c134_isomorphism`, `c134_nodes`, `c134_merges` |  |
| C135 Laws of graph_union and graph_minus | proved | `graphUnion`, `graphMinus`, `GView.equal`; no new model definitions. | The graphs the calls return are described by operations on abstract graphs (C38, C41); the laws are shown for those, and `equal` by counting listed edges (C84). | `c135_union_assoc`, `c135_union_self`, `c135_union_comm`, `c135_minus_minus`, `c135_minus_self`, `c135_union_minus`, `c135_minus_union` |  |
| C136 Reordering before freezing | proved | `reorderId`, `intoStatic`, `Bfs.next`, `Dfs.next`; no new model definitions. | C29 and C30 make the ids dense, so that C24 and C26 apply; label tables do not grow; searches by C31 and C33 and translating back. | `c136_freezes_iff`, `c136_keeps_graph`, `c136_searches` | with a label flag: label ids in use are known and the same for both directions, otherwise reorder_id panics (C65); tables leave one label id free, as in C25 |
| C137 stats on files | proved | `Programs.statsFiles`, `load`, `stats` | induction over the files; the frozen graph with its direction replaced (`import_direction`) lists the edges with start at most end, C102 and C25 for the rest | `c137_files`, `c137_exported` | lines printed for a file before a panic are not modelled; import of an exported file: C46 |
| C138 Detecting components in one graph after another | proved | `ConnComp.runDetection`, `graphUnion`; no new model definitions. | The history of processed edges is extended by the listed edges of the graph; the union lists the same pairs up to order, and answers do not depend on the order of edges (C38). | `c138_run_detection`, `c138_union` |  |
| C139 Searches of undirected graphs go component by component | proved | `Bfs.next`, `Dfs.next`, `ConnComp`; no new model definitions. `Spec/Components.lean` says what it means to go component by component. | The order of C66 in a symmetric graph: what is reached from a segment's first node is its component (`Proof/Components.lean`); numbers by counting classes. | `c139_bfs`, `c139_dfs` |  |
| C140 Isomorphic graphs are treated alike | proved | no new model definitions; `Spec/Iso.lean`: isomorphism of labelled graphs, length of a shortest walk. | Walks, connectedness and listed edges are carried over (`Proof/Iso.lean`; listed edges of undirected graphs by halving the number of ordered pairs); C21, C32, C35, C36 on both sides; two sorted lists with the same elements are equal; C29 for `reorder_id`. | `c140_sizes`, `c140_components`, `c140_labels`, `c140_bfs`, `c140_reorder` | for reorder_id the two directions of an undirected edge must show the same label; raw label ids can make them differ (C65) |
| C141 How likely random graphs are | proved | `Gen.sampleIter`, `gnm`, `gnp`, `completeGraph`, `randomItem`; no new model definitions. `Spec/Uniform.lean`: streams with some draws left open. | Reservoir sampling: by induction on the stream, each subset of size c arises from exactly (N − c)! draw tuples (`count_placeAll`); tosses: the outcome splits the tuple of draws into independent parts (`count_tosses`); labels: the generators as explicit histories of operations, then C05 and C06. | `c141_gnm_uniform`, `c141_gnp_independent`, `c141_complete_labels`, `c141_gnm_labels` | that the draws of rand are themselves equally likely and independent is assumed of the crate; rand's sample_iter is modelled from rand 0.5; labels: lists without repetition that fit the label id type |
| C142 The order of calls that do not meet does not matter | proved | `GraphMap.apply` for the ten calls without raw label ids, `Csv.read`; no new model definitions. `Spec/Order.lean`: which calls meet, histories got by swapping. | On abstract graphs two calls that do not meet commute (`step_comm`), and so do what they count twice, whether they may panic and which labels they name (`surplus_comm`, `fine_comm`, `names_comm`); then C05, C06, C14 and C60 for both histories. | `c142_no_panic`, `c142_same`, `c142_any_order`, `c142_csv_rows` | histories with label ids written directly are left out; CSV with a header line |
| C143 Calls that undo each other | proved | `GraphMap.addEdge`, `removeEdge`, `addNode`, `removeNode`, `updateNodeLabel`, `updateEdgeLabel`; no new model definitions. | The abstract graph after both calls is the one before (C05, C06); `edge_count` by C60, `max_seen_id` by C14. | `c143_add_remove_edge`, `c143_remove_add_edge`, `c143_add_remove_node`, `c143_remove_add_node`, `c143_relabel_node`, `c143_relabel_edge` | that update_edge_label counts an edge again is the defect of C12 and C60 |
| C144 How large exported and dumped files are | proved | `Codec.graphMap`, `Codec.staticGraph`, `Codec.aux`, `StaticGraph.dumpMmap`, `World.export`; no new model definitions. `Spec/Sizes.lean`: how many edges and labels there are to write. | Each codec's length in terms of its parts (`Proof/Sizes.lean`); sums over the stored nodes turned into numbers of pairs that answer `has_edge`; the room of C47's proof (`dump_room`). | `c144_graph_map`, `c144_static`, `c144_dump` | creating a file counts as one unit of room |
| C145 Additions made again | proved | `GraphMap.apply` for `add_node`, `add_edge`, `Csv.read`; no new model definitions. | After a list of additions every node carries the label it was last given and every edge the label it was given last (`lastNode`, `lastEdge`), whatever was there before, so the second run changes nothing on the abstract graph (`adds_again`); C05, C06, C60 and C14 for both histories. | `c145_again`, `c145_csv` | that edge_count grows is the defect of C12 and C60; label tables that outgrow the label ids are left out of 'no answer' (C83) |
| C146 Which labels survive CSV files | proved | `Csv.write`, `Csv.read`, `writeTo`, `readFrom`; no new model definitions. `Spec/Again.lean`: the graph without empty labels. | The view with the empty labels hidden writes the same bytes, so C88 applies to it; the labels of a file with a header line by C52 and C76; a graph's label tables hold only labels it was given (`exec_adds`). `c146_lost` is a file without header line. | `c146_write_read`, `c146_labels`, `c146_static_to_csv`, `c146_round`, `c146_lost` |  |
| C147 What restarts of a search cost, and the largest id | proved | `Model/Capacity.lean`: `with_capacity` and `new` with the 64-bit addition, checked and wrapping; the ids `next_unvisited_node` asks `has_node` about (`asked`), counted along a search (`Asks`). `Spec/SearchCost.lean`: how many ids below an id are no nodes. | The bits of ids that are no nodes stay set (`Kept`), and all nodes below a restart have been visited, so the ids asked about are the gaps below it (`asked_restart`); summed over the restarts (`asks_count`). | `c147_bfs_restart`, `c147_dfs_restart`, `c147_total`, `c147_most`, `c147_dense`, `c147_edgeless`, `c147_small`, `c147_largest` | the cost counts calls of has_node, not the scan over the words of the bit set |
| C148 How single edges change the components | proved | `ConnComp.processEdge`, `runDetection`, `getCount`, `GraphMap.addEdge`, `removeEdge`, `addNode`, `updateNodeLabel`, `updateEdgeLabel`; no new model definitions. | The registered ends raise the count, distinct roots lower it (`inv_edge_count`), which gives the number of components of a list with one more edge (`count_snoc`); summed over the list (`occurs_joins`), with any edge moved to the end (`forest_iff`). Calls on graphs change the list of edges by that edge up to order and orientation (`same_add`), and C38 makes that irrelevant. | `c148_step`, `c148_joins`, `c148_forest`, `c148_graph`, `c148_add_edge`, `c148_remove_edge`, `c148_add_node` |  |
| C149 Graphs with shared label tables agree on label ids | proved | `GraphMap.withLabelMap`, all mutators, `getNode`, `getEdge`, `getNodeLabel`, `getEdgeLabel`; no new model definitions. | Tables only grow at the end and have no repeats (`run_tables`), so a label of the copied tables has one place in both (`table_id`). `c149_later` is a pair of graphs that disagree about a label added after copying. | `c149_node_ids`, `c149_edge_ids`, `c149_labels`, `c149_edge_labels`, `c149_later` |  |
| C150 Lengths of CSV files | proved | `Csv.write`, `writeField`, `writeRecord`, `writeAll`, `writeTo`; no new model definitions. `Spec/CsvSize.lean`: bytes of fields, lines and files, from the abstract graph. | What `write` produces for a graph that shows an abstract graph (`write_ok`), field by field (`Proof/CsvSize.lean`); digits by the standard library's bound on `Nat.toDigits`. | `c150_lengths`, `c150_any_order`, `c150_decimal`, `c150_unlabelled`, `c150_files` |  |
| C151 Searches and components of generated graphs | proved | `Bfs.next`, `Dfs.next`, `ConnComp`, `Gen.completeGraph`, `Gen.emptyGraph`; no new model definitions. `Spec/Shapes.lean`: complete graphs. | The order of C66: in a complete graph every node is first seen from the start, so the keys are the ids; without edges every segment is one node (`Proof/Shapes.lean`). C43 for the generators, C35 and C36 for components. | `c151_complete`, `c151_edgeless`, `c151_components`, `c151_generated` |  |
| C152 Searches and components of paths | proved | `GraphMap.addEdge`, `Bfs.next`, `Dfs.next`, `ConnComp`; no new model definitions. `Spec/Shapes.lean`: paths and the calls that build them. | By C113 a search yields the only list with the properties of C66, so the claimed list is shown to have them (`arrows_sweep`, `links_dfs`); the breadth-first order by distance from C32, ties by induction on the distance (`links_bfs`). | `c152_path`, `c152_directed`, `c152_undirected_dfs`, `c152_undirected_bfs`, `c152_components` |  |
| C153 remove_node only affects its own component | proved | `GraphMap.removeNode`, `ConnComp`; no new model definitions. | The components of the graph without the node are the other components and the pieces of its own, two disjoint sets (`Proof/Cut.lean`); each piece holds a neighbour. C17 for the edges left, C36 for the count. | `c153_connected`, `c153_count`, `c153_leaf` |  |
| C154 Which graphs calls can make | proved | `GraphMap.apply`, `reorderIdWith`, `Codec.graphMap`, `World.import`; no new model definitions. `Spec/Sound.lean`: proper collections and records that fit together. | One direction is the invariant of C01–C04. For the other the calls that make the graph are given: labels into the tables, nodes in the order of the map, edges, label ids through handles, `refine_edge_count` and surplus `add_edge`s for the counter, a node at the largest id removed again (`made_of_inv`). Import: sorted collections come from collecting the sequences read (`graphMap_proper`). | `c154_reachable`, `c154_from_new`, `c154_import`, `c154_go_on`, `c154_only_reordered`, `c154_each_needed` |  |
| C155 Graphs read from any file | proved | `Model/Checked.lean`: `add_edge` and `update_edge_label` with the 64-bit counter of a build with overflow checks, calls with panics caught; `Bfs.next`, `Dfs.next`, `Traversal.new`, `World.import`. | Calls without any assumption on the graph (`Proof/Checked.lean`). A search sees only records and neighbours up to the recorded maximum, so it runs as on the graph cut down to those (`drain_trim`), to which the proof of C129 applies. | `c155_panics`, `c155_below`, `c155_proper`, `c155_new`, `c155_bfs`, `c155_dfs`, `c155_import`, `c155_forged` |  |
| C156 Queries of frozen graphs read from any file | proved | `EdgeVec` and its edge iterator, `StaticGraph`, `MmapGraph`; no new model definitions. `Spec/RawCsr.lean`: which rows are there, and what they hold. | Calls without any assumption on the arrays (`Proof/RawCsr.lean`). A binary search of any list stops and finds nothing that is not there. The enumeration equals a recursion over the rows that needs no fuel (`collect_raw`). | `c156_neighbors`, `c156_degree`, `c156_has_edge`, `c156_mapped_has_edge`, `c156_edge_label`, `c156_node_label`, `c156_edges`, `c156_no_offsets`, `c156_never_ends`, `c156_disagree`, `c156_endless` |  |
| C157 Searches of anything behind the traits | proved | `Model/Calls.lean`: frozen and mapped graphs as seen by code that never enumerates edges; `Bfs.next`, `Dfs.next`, `Traversal.new`. | Invariant of a search over any record of answers (`Half`): visited and waiting ids are those whose bit is off, each is met, and what visited ids list is known. Frozen graphs are a case; the order for sorted rows comes from C66 through `low_shows`. | `c157_bfs`, `c157_dfs`, `c157_new`, `c157_frozen_bfs`, `c157_frozen_dfs`, `c157_frozen_order`, `c157_same_static`, `c157_same_mapped` |  |
| C158 Components of anything behind the traits | proved | `ConnComp.new`, `StaticGraph.view`, `EdgeVec`; no new model definitions. | The union-find invariant of C35-C38 holds for any list of edges (`fold_history`), whatever the graph; the list of a frozen graph is that of C156, cut off where `edges` zips it with the labels. | `c158_components`, `c158_same`, `c158_frozen`, `c158_lopsided` |  |
| C159 Union, difference and clones of anything behind the traits | proved | `graphUnion`, `graphMinus`, `cloneBox`, `StaticGraph.view`; no new model definitions. `Spec/AnySets.lean`: the calls a copy makes, each with the label given or the panic. | A copy is a list of additions that may panic before they are made (`follow`); additions never panic (`exec_adds`), and histories give the result. Removals by `removeNode_spec` and `removeEdge_spec`, by induction over the listing (`Proof/AnySets.lean`). C156 and C158 for frozen graphs. | `c159_union`, `c159_clone`, `c159_minus`, `c159_frozen`, `c159_halfNamed` |  |
| C160 Which frozen graphs there are | proved | `GraphMap.intoStatic`, `StaticGraph`, `EdgeVec`; no new model definitions. `Spec/Melt.lean`: arrays, labels and counts that fit together. | One direction from what `into_static` writes (`FrozenAs`). For the other a graph is built from the rows, with as many nodes as are counted (`melt`); it keeps the invariant, so by C154 calls can make it, and freezing it gives the same arrays back (`cut_encodes`, `meltable_frozen`). | `c160_frozen`, `c160_cases` |  |
| C161 What freezing forgets | proved | `GraphMap.intoStatic`; no new model definitions. `Spec/Forget.lean`: the calls two graphs have to agree in. | Both graphs are frozen with `FrozenAs`. Equal arrays give equal answers by C24-C25's lemmas; for the converse rows are sorted and so fixed by their members (`sorted_ext`, `row_rebuild`, `encodes_shape`). | `c161_forgets`, `c161_keeps`, `c161_gap` |  |
| C162 edges() of a labelled frozen graph stops with its labels | proved | `EdgeIter.zip`, `EdgeVec.labelled`, `StaticGraph.edges`, `MmapGraph.edgeList`: the standard library's `zip`, which asks the pairs first and the labels second. | More fuel changes no answer of `next` (`next_mono`), so zipping an enumeration that ends is zipping its list. With a row for every id row numbers are taken modulo the number of ids; from any row of any round `next` gives what is left of the round, else goes on with the next (`next_round`, `zip_round`). Without a pair to list every row is passed over for ever (`next_stuck`). | `c162_zips`, `c162_ends`, `c162_round`, `c162_directed`, `c162_twice`, `c162_stuck`, `c162_more_fuel`, `c162_unseen` |  |
| C163 Which CSV fields are ids | proved | `Field.decimal`, `Field.number` (`Model/Csv.lean`). `Spec/Numbers.lean`: numerals by Mathlib's `Nat.ofDigits`. | Both readers accumulate digits from the left; by induction that is `Nat.ofDigits` of the reversed digits. The record visitors look at fields through the reader only. | `c163_decimal`, `c163_number`, `c163_extends`, `c163_same_files`, `c163_round_trip` | the two versions of the csv crate's integer fields are modelled from its documentation and known source |
| C164 Which bytes are text | proved | `Model/Utf8.lean`: `utf8Step`, `utf8`, the automaton of `core::str::from_utf8`. `Spec/Utf8.lean`: the bytes of a Lean `String`. | Each character's bytes are followed through the automaton by case on its length; conversely every accepted sequence splits off one character (`utf8_next`). | `c164_utf8`, `c164_unique`, `c164_kept`, `c164_append` |  |
| C165 CSV files that are not text | proved | `Model/Utf8.lean`: `Csv.textRows`, `Csv.readTexts`: the CSV reader with the UTF-8 check of the csv crate's `StringRecord`, and `Field.string`. | The parser of records keeps text together since separators, quotes and line ends are below 128 (`step_text`, `text_records`); otherwise row by row. The round trip is C88's with the check added. | `c165_same`, `c165_read`, `c165_file`, `c165_separator`, `c165_skips`, `c165_header`, `c165_plain`, `c165_round_trip`, `c165_graph_map`, `c165_examples` |  |
| C166 Strings in exported files | proved | `Model/Utf8.lean`: `Codec.string`. `Spec/Values.lean`: graphs with other label values. | Reading with the check succeeds exactly if reading without does and the result is text (`ReadsVia`), lifted through `vec`, `setMap` and the graph formats; inserting into a table commutes with injective maps (`from_values`). | `c166_string`, `c166_put`, `c166_round`, `c166_table`, `c166_table_put`, `c166_graph_bytes`, `c166_static_bytes`, `c166_aux_bytes`, `c166_graph`, `c166_static`, `c166_aux`, `c166_import`, `c166_import_static`, `c166_refused` |  |
| C167 Label values matter only through their equality | proved | All mutators of `GraphMap`, `GView.equal`, `typedEq`, `graphUnion`, `graphMinus`, `cloneBox`, `reorderIdWith`, `reorderId`, `intoStatic`, `StaticGraph.view`; no new model definitions. `Spec/Values.lean`: graphs and calls with other values. | Function by function: looking up and adding a label commutes with injective maps (`find_values`, `add_values`), everything else does not touch the values. | `c167_apply`, `c167_exec`, `c167_add_node`, `c167_add_edge`, `c167_remove_node`, `c167_remove_edge`, `c167_update_node`, `c167_update_edge`, `c167_add_node_label`, `c167_add_edge_label`, `c167_view`, `c167_static_view`, `c167_node_label`, `c167_edge_label`, `c167_equal`, `c167_typed_eq`, `c167_union`, `c167_minus`, `c167_clone`, `c167_reorder_with`, `c167_reorder`, `c167_freeze`, `c167_collapse` |  |
| C168 Node ids matter only through their order | proved | All mutators and queries of `GraphMap`, `Traversal`, `GView.equal`, `typedEq`, the counters, `graphUnion`, `graphMinus`, `cloneBox`; no new model definitions. `Spec/Ids.lean`: graphs and calls with other ids. | Function by function for strictly monotone maps: insertion into the sorted neighbour lists and lookup commute with them (`Proof/Ids.lean`). Reachability by C154: a graph is made by calls, and each call has a counterpart. The searches for any two graphs that show isomorphic abstract graphs with the order kept, by C113's uniqueness of the visit order. | `c168_queries`, `c168_add_node`, `c168_add_edge`, `c168_remove_node`, `c168_remove_edge`, `c168_update_node`, `c168_update_edge`, `c168_apply`, `c168_exec`, `c168_run`, `c168_reachable`, `c168_iso`, `c168_bfs`, `c168_dfs`, `c168_search`, `c168_counters`, `c168_equal`, `c168_union`, `c168_minus`, `c168_clone`, `c168_widen`, `c168_order` |  |
| C169 The width of the label-id type does not matter while there are few labels | proved | All mutators and queries of `GraphMap`, `intern`, `GView.equal`, `hashData`; no new model definitions. `Spec/Lids.lean`: graphs and calls with other label ids. | Function by function as C168. The tables keep to the labels given (`keeps_apply`, from C82's account of the tables) and have no repeats, so that they are never longer than the number of labels (`room_of`) and the truncating `L::new` loses nothing (`new_lids`). | `c169_queries`, `c169_add_node`, `c169_add_edge`, `c169_remove_node`, `c169_remove_edge`, `c169_update_node`, `c169_update_edge`, `c169_apply`, `c169_exec`, `c169_run`, `c169_abs`, `c169_reachable`, `c169_equal`, `c169_overrun` |  |
| C170 LDBC files that are not text | proved | `Scheme.fromPath`, `records`, `feed` with `utf8` (`Model/Utf8.lean`) for their parameter; no new model definitions. | C165 for the records of a text file; C53 for what loading needs; the labels by an invariant over the loops, from what one call adds to the tables (`table_apply`). | `c170_records`, `c170_text`, `c170_needed`, `c170_labels`, `c170_strings`, `c170_init`, `c170_refused` | The csv crate's StringRecord check put in for the free UTF-8 parameter of the LDBC model. |
| C171 ConnSubgraph of anything behind the traits, and the order of its parts | proved | `ConnSubgraph.new`, `processNode`, `processEdge`, `onSubgraph`; no new model definitions. `Spec/AnySubgraphs.lean`: the calls with their panics, the members of a list that are not related to an earlier one. | The loop invariant of C39 with the order of the roots added and without assumptions on the graph (`Parts`, `parts_loop`); roots are exchanged for first mentions since the forest's representatives decide linkedness. | `c171_any`, `c171_order`, `c171_heads`, `c171_frozen`, `c171_lopsided`, `c171_parts` |  |
| C172 Parts put together again, and taken apart again | proved | `ConnSubgraph.new`, `graphUnion`, `GView.equal`; no new model definitions. | C171 for the parts, C135's lemma on unions for each step; the parts share no edges, and unions of restrictions to closed sets of nodes are restrictions (`restrict_union`). | `c172_reassemble`, `c172_again` | Isolated nodes make ConnSubgraph::new panic (C39). |
| C173 The order of the files of an LDBC directory | proved | `Scheme.fromPath`; no new model definitions. The events of `Spec/Ldbc.lean`. | C53 for either order; the events of one entry of the scheme are permuted among themselves, and the relation alone decides the label of an edge, so the last record joining two keys gives the same label. | `c173_loads`, `c173_same`, `c173_moved` |  |
| C174 The widths of the id types do not matter to frozen graphs | proved | `GraphMap.intoStatic`, `EdgeVec`, `EdgeIter`, `binarySearch`, `StaticGraph`; no new model definitions. `Spec/Wide.lean`: frozen graphs with ids and stored label ids of other types. | Function by function; the binary search only compares, the enumeration stays below the number of rows where the truncating `Id::new` loses nothing, the loop of `into_static` by induction on its turns with the records left free of the largest label id. | `c174_queries`, `c174_freeze`, `c174_room`, `c174_limits` |  |
| C175 Mapped files read with other id types | proved | `StaticGraph.dumpMmap`, `MmapGraph.new`, `TypedMap`; no new model definitions. `Spec/Reread.lean`: the numbers of one width in a row of numbers of another. | The bytes of a row of numbers are the digits of one big number; reading at a position is a division and a remainder. C55's description of the files after a dump; C160's shape of frozen graphs for the row that ends last. | `c175_length`, `c175_right_iff`, `c175_narrow`, `c175_wide`, `c175_loads`, `c175_narrow_answers`, `c175_wide_panics`, `c175_misread` |  |
| C176 Comparing, hashing and counting anything behind the traits | proved | `GView.equal`, `typedEq`, `contained`, `hashData`, `nodeLabelCounter`, `edgeLabelCounter`; no new model definitions. `Spec/AnyEqual.lean`: what the answers about one node or pair amount to. | The three outcomes of a loop that leaves at the first failing item, by induction; case analysis for one item. C156 and C159 for frozen graphs. | `c176_equal`, `c176_typed`, `c176_self`, `c176_trans`, `c176_node_counter`, `c176_edge_counter`, `c176_id_counters`, `c176_hash`, `c176_frozen`, `c176_odd` |  |
| C177 CSV files of anything behind the traits | proved | `Csv.write`, `Csv.read`, `cloneBox`; no new model definitions. | Both sides as lists of calls (C51's lemmas on written rows, C159's on clones); the lists are the same. | `c177_panics`, `c177_reads`, `c177_clone`, `c177_odd` |  |
| C178 Loops over the edges of frozen graphs from any file | proved | `Model/Loops.lean`: `EdgeIter.loop`, `EdgeVec.forEdges`, `EdgeVec.equalBy` and `equalSteps`: the iterator asked for one edge at a time along with the body of the loop. `Spec/Loops.lean`: the rows before the first one that can not be passed. | A loop is the turns over the edges the iterator yields, then its end (`loop_trace`); these edges and the end by induction on rows and entries as in C156 (`trace_raw`, `listed_rows`). With all numbers as nodes `next` never returns `none`. The comparison by C176's outcomes of a leaving loop. | `c178_reaches`, `c178_unique`, `c178_loop`, `c178_list`, `c178_endless`, `c178_view`, `c178_mapped_view`, `c178_equal`, `c178_never_equal`, `c178_lazy` |  |
| C179 Enumerating undirected frozen graphs whose rows are not sorted | proved | `EdgeIter.next`, `EdgeIter.loop`, `collect`, `binarySearch`; no new model definitions. `Spec/Unsorted.lean`: what a row shows and when it settles, in terms of where the search of the row ends. | From an entry of a row the iterator yields it or jumps to the landing of the search (`pick_landing`); by induction on what is left of a row, then on rows (`trace_row`, `trace_rows`). A row with a smaller entry after the landing always has one ahead (`trace_stuck`). What is listed never exceeds the entries, so that the fuel of `edgeIndices` is enough (`shown_length`). | `c179_gets_to`, `c179_loop`, `c179_stuck`, `c179_edges`, `c179_sorted`, `c179_rows` |  |
| C180 How many entries a lookup in a frozen graph compares | proved | `Model/Looks.lean`: `searchLooks`, `binarySearchLooks`, `findEdgeIndexLooks`, `hasEdgeLooks`: the functions of `Model/Static.lean` along with the list of the positions compared. The search is the one of the standard library of the time (halving the size, one comparison per turn and one at the end), as in `binarySearch`. | Induction on the size (`looks_loop`) with Mathlib's `Nat.clog`; erasing the list gives back the search. | `c180_search`, `c180_has_edge`, `c180_mapped_has_edge`, `c180_most`, `c180_doubled` |  |
| C181 Components found so far when a damaged graph stops the detection | proved | `Model/Detect.lean`: `EdgeIter.each`, `EdgeVec.eachEdge`: a loop over `edges()` with the state it writes to returned along with the panic; `ConnComp.detectTurn`, `StaticGraph.detect`, `MmapGraph.detect`. | The loop is the turns over the pairs the iterator yields zipped with the labels, then its end (`each_trace`); the pairs by C179's lemmas; the turns by induction over the history of the `ConnComp` (`writes_detect`), and the answers by C35 and C36. | `c181_run`, `c181_frozen`, `c181_mapped`, `c181_again`, `c181_stuck`, `c181_view`, `c181_torn` |  |
| C182 Reorderings made one after the other, and taken back | proved | `reorderIdWith`, `newId`, `newLabelMap`, `reorderLabelMap`; no new model definitions. | C20's description of a reordered graph (`Renamed`) read as a relation between the nodes, labels and edges of the two graphs (`Moved`); these relations compose, and a graph related to itself by the identity has the same rows (`Moved.perm`). The way back is the inverse of the id map completed to a permutation of all ids (`takes_back`). | `c182_compose`, `c182_undo`, `c182_identity`, `c182_lost`, `c182_max`, `c182_dropped` |  |
| C183 Mapped files moved to a machine with another usize | proved | `Model/Hosts.lean`: `EdgeVec.openMmapAt`, `EdgeVec.dumpMmapAt`, `MmapGraph.loadAuxAt`, `MmapGraph.newAt`: the functions of `Model/Mmap.lean` with the width of `usize` as a parameter. For whole graphs only dumps of machines with eight bytes are modelled, for arrays all. Tables of labels are taken to be shorter than what `usize` holds. Little endian throughout. | C175's description of arrays cut otherwise applied to the offsets; queries by C156's characterisation over all arrays. | `c183_same`, `c183_arrays`, `c183_loads`, `c183_narrow`, `c183_first`, `c183_wide`, `c183_misread` |  |
| C184 What reordering fixes, and reordering again | proved | `reorderId`, `idsByDegree`, `labelOrder`; no new model definitions. | Sorted lists that are permutations of each other are equal; C30's renamings carry degrees and counts over. A stable sort leaves a sorted list alone, and C182 for the identity. | `c184_degrees`, `c184_again`, `c184_node_labels`, `c184_edge_labels`, `c184_labels_again`, `c184_edges_again`, `c184_fixed`, `c184_swap` |  |
| C185 Chances of edges and mean degrees of random graphs | proved | `gnm`, `gnp`; no new model definitions. Chances are numbers of streams of draws, means are sums over them. | Every stream makes one set of edges; C141 counts the streams of each, which are summed over the sets that contain the wanted edges (Mathlib's binomial sums). | `c185_gnm_has`, `c185_gnp_has`, `c185_gnm_edge`, `c185_gnp_edge`, `c185_gnm_degree`, `c185_gnp_degree`, `c185_gnp_edges` |  |
| C186 Graphs with their edges turned around | proved | `GraphMap` and its calls, `intoStatic`, `ConnComp.new`; no new model definitions. `Spec/Mirror.lean`: a call with source and target exchanged. | A simulation between the two graphs: each call keeps their nodes, tables and counters equal and their arcs opposite (`Mirrored.apply`), from the effect of each call on nodes and arcs. Rows are sorted, hence determined by their members. C35 and C36 for the components. | `c186_panics`, `c186_graph`, `c186_directed`, `c186_undirected`, `c186_results`, `c186_frozen`, `c186_components`, `c186_edges_mut` |  |
| C187 Mapped files on machines with another byte order | proved | `Model/Endian.lean`: `inMemory`, `fromMemory`, `EdgeVec.openMmapOn`, `EdgeVec.dumpMmapOn`, `StaticGraph.dumpMmapOn`, `MmapGraph.newOn`: the functions of `Model/Mmap.lean` with the byte order of the machine as a parameter; `usize` has eight bytes. `Spec/Endian.lean`: a number with its base-256 digits in the opposite order. | Reversing the bytes of a number is an involution on numbers; a dump in the other order is the dump of the turned arrays, opening in the other order turns the arrays opened (`c187_dump`, `c187_open`); C175 for what a dump loads as; queries by C156's characterisation over all arrays, since small offsets become larger than the array. | `c187_twice`, `c187_large`, `c187_fixed`, `c187_little`, `c187_open`, `c187_dump`, `c187_loads`, `c187_neighbors`, `c187_right`, `c187_has_edge`, `c187_edges`, `c187_nodes`, `c187_labels`, `c187_misread` |  |
| C188 CSV files left when a damaged graph stops the writing | proved | `Model/CsvSteps.lean`: `OutFile.put`, `writeTurn`, `eachNode`, `eachPair`, `writeSteps`, `StaticGraph.writeCsv`, `MmapGraph.writeCsv`: `CSVWriter::write` turn by turn with the state of the two writers. An unwinding panic drops the writers, which flush (the `csv` crate leaves the flush out only after a panic of the file itself). Iterators that never end are left out here (C179 has them). | Bytes pushed in pieces are bytes pushed at once (`pushAll_append`), so a loop is one write of the records before the first panic (`eachNode_eq`); the iterator by C179's lemmas; C177 for the reading back. | `c188_part`, `c188_edges`, `c188_left`, `c188_nodes`, `c188_read`, `c188_whole`, `c188_mapped_whole`, `c188_labels`, `c188_mapped_labels`, `c188_frozen`, `c188_torn`, `c188_short_labels` |  |
| C189 Names of LDBC files say what is read from them | proved | `Scheme.init`, `Relation.isMatch`, `Node.isMatch` and the records read (`events`, tied to the code by C53 and C78); `Spec/LdbcNames.lean` lists the triples of the names on its own. | A start that occurs anywhere in a name of the generator occurs in its start (`infix_canonical`); the table of starts is compared with the list of triples once. | `c189_relation`, `c189_kind`, `c189_edges`, `c189_nodes`, `c189_unread` |  |
| C190 Iterators after their end, and after a panic | proved | `Model/IterState.lean`: `EdgeIter.skipKeep`, `EdgeIter.nextKeep`, `EdgeIter.answers`: `next` of the edge iterator with the state it leaves behind also at `None` and at a panic. `Bfs.next`, `Dfs.next`. | `c190_agrees`: the function with the state answers as `EdgeIter.next` does; a call that yields no edge leaves a state from which the next call takes the same path (`c190_stays`); results other than running out of fuel do not depend on the fuel (`keep_mono`). | `c190_agrees`, `c190_stays`, `c190_answers`, `c190_edge_indices`, `c190_panics`, `c190_bfs`, `c190_dfs` |  |
| C191 Searches that go on after a panic | proved | `Model/SearchState.lean`: `Bfs.nextKeep`, `Dfs.nextKeep`, `replies`: `next` with the state left behind by a panic of `neighbors_iter`, which comes after the node was taken and before the loop. | `c191_bfs_agrees`, `c191_dfs_agrees`: the functions answer as `Bfs.next` and `Dfs.next` do. Nodes taken and nodes waiting are together exactly the ids whose bit is unset, without repetitions (`Taken`); a call takes one of them, so that there are at most as many as bits (`fair_all`). C156 for the rows. | `c191_bfs_agrees`, `c191_dfs_agrees`, `c191_bfs`, `c191_dfs`, `c191_frozen_bfs`, `c191_frozen_dfs`, `c191_mapped_bfs`, `c191_mapped_dfs`, `c191_healed_bfs`, `c191_healed_dfs`, `c191_loop_bfs`, `c191_loop_dfs` |  |
| C192 Which laws of an equivalence equal and == keep | proved | `GView.equal`, `GView.typedEq`, `GView.boxHashData`; no new model definitions. | Being a labelled subgraph is a partial order on labelled graphs; C61 and C84 say what the comparisons decide. | `c192_equal_refl`, `c192_equal_trans`, `c192_equal_symm_iff`, `c192_equal_symm`, `c192_equal_both`, `c192_keys`, `c192_eq_refl`, `c192_eq_trans`, `c192_eq_both`, `c192_not_symmetric` |  |
| C193 How often an enumeration of the edges searches | proved | `Model/IterSearches.lean`: `EdgeIter.pickLog`, `EdgeIter.nextLog`, `EdgeIter.collectLog`: the iterator with the nodes in whose rows it searches (the comparisons of one search are C180). | `c193_agrees`: without the log it is the iterator of `Model/Static.lean`. Each step uses up the searches expected from its place on (`next_own`); behind the place a search lands on, no entry is less than the node (C179). | `c193_agrees`, `c193_searches`, `c193_most` |  |
| C194 edges() after its end | proved | `Model/ZipState.lean`: `EdgeIter.zipKeep`, `EdgeIter.edgesAnswers`: the zip behind `edges()` with its state after every call (`core::iter::Zip` without specialisation, since the edge iterator has no random access). | `c194_agrees`: the zip of `Model/Static.lean` takes these steps; its answers are those of the edge iterator (C190) put beside the labels (`zip_beside`). | `c194_agrees`, `c194_answers`, `c194_edges`, `c194_graph`, `c194_mapped`, `c194_late_panic` |  |
| C195 Degrees of frozen graphs from any file | proved | `Model/Static.lean` and `Model/Mmap.lean`: `degree`, `edgeIndices`, `new` as before; `Spec/RawCsr.lean`: rows of arrays of which nothing is known. | `c156_degree` for each node, a telescoping sum (`c195_sum`), and for undirected graphs the listed pairs and their swaps as a permutation of all entries. | `c195_asked`, `c195_sum`, `c195_directed`, `c195_undirected`, `c195_default`, `c195_mapped_asked`, `c195_mapped`, `c195_short` |  |
| C196 In-neighbours of frozen graphs | proved | `Model/Static.lean`: `inNeighbors`, `inDegree`, `neighbors`; `Spec/Melt.lean`: `Packed`. | Sorted rows with the same members are the same, offsets are the lengths of the rows before (`rows_before`); sums by C195; frozen graphs by C160. | `c196_asks`, `c196_agree`, `c196_sums`, `c196_determined`, `c196_frozen`, `c196_mapped`, `c196_unaware` |  |
| C197 Lines printed by stats | proved | `Model/StatsLines.lean`: `maxDegree`, `countersSteps`, `graphLines`, `statsOutput`: the lines of stats.rs, with edges enumerated lazily; `IsMostCommon` (`Model/Reorder.lean`) leaves the order of ties open; the time printed at the end is a parameter. | Where edges can be enumerated the steps are those of `stats` (C102, C137) by `c178_list`; else the counters panic (`counters_fail`). | `c197_graph`, `c197_ends`, `c197_stops`, `c197_order`, `c197_half` |  |
| C198 Figures of CSV files | proved | `Model/Programs.lean`: `csvToStatic`, `load`, `stats` as before; `statsOf` (`Props/StatsFiles.lean`) is `stats` on one file. | The file without labels reads alike for any label types (`c108_unlabelled`); taken for undirected it lists fewer edges but answers the same degrees (`unoriented_any`, `bare_stats`); renaming nodes keeps degrees (`carries_degree`). | `c198_chain` |  |
| C199 Figures without labels | proved | `Model/Programs.lean`: `removeLabels`, `load`, `stats`; `Model/Static.lean`: `removeLabels` as before. | C28 for the queries of a graph without its labels, each step of `stats` inverted; C99 for the file. | `c199_figures`, `c199_chain`, `c199_mends` |  |
| C200 Label tools in sequence | proved | `Model/Programs.lean`: `removeLabels`, `variedLabels`, `varyLabels` as before; the draws are any sequence (`Rng`). | Everything `vary_labels` changes is something `remove_labels` clears (`c200_graphs`); the bytes written are a function of the graph (`removeLabels_bytes`). | `c200_graphs`, `c200_removed`, `c200_varied` |  |

## Where the code does not do what one expects

Each is a theorem with a concrete witness or an exact characterisation.

* C08: a label written through `get_edge_mut` or `edges_mut` of an undirected graph
  changes one orientation only.
* C12, C60: `edge_count` counts every `add_edge` call, also one that only changes a
  label; `remove_node` subtracts in- and out-degree.
* C13, C59: `remove_node` panics on every node with a self loop.
* C16: label ids wrap around when there are more labels than ids.
* C18, C61: `==` on typed graphs is one-sided containment, because of a missing
  negation on the counts.
* C19: equal graphs can hash differently when `edge_count` has drifted.
* C20: `equal` compares the drifted counts.
* C24: a label whose id is the maximum of the label-id type is lost on freezing.
* C25: ids missing below the maximum become nodes on freezing.
* C26: freezing never ends, or panics, when the maximum id is used or the graph is empty.
* C27: `edges()` of a frozen undirected labelled graph pairs edges with wrong labels.
* C34: the depth-first search marks nodes when they are pushed, so it is not
  depth-first on graphs with cycles. C70: `move_to` forgets pending nodes.
* C37, C39: isolated nodes are unknown to the component structure; asking for them
  panics.
* C40: labels of a union can collide. C41: difference panics on shared self loops.
* C42: a clone need not be `equal` to its original once the count has drifted.
* C45, C69: the random generator accepts NaN as a probability.
* C48, C55: a dump over an older dump, or a crash during a dump, can leave a set of
  files that loads as a different graph. C47: a dump without edges cannot be loaded.
* C49: `map[..e]` of a memory map is not checked against the length.
* C54: two LDBC relations are registered twice; C77: relations between the same two
  nodes collapse, the last wins; C53: keys can collide.
* C62: iterating a frozen graph that uses the whole id range never ends.
* C63: default counts of a frozen graph miscount self loops. C64: `clear` leaves an
  edge vector on which every query panics.
* C65: `reorder_id` panics on unknown label ids and on asymmetric labels.
* C71: the graph generators wrap ids around.
* C73, C74: `export` reports success though the last bytes did not fit on the disk;
  `dump_mmap` can return `Ok` with a truncated auxiliary file.
* C75: the direction of a graph is not stored; a file of one kind loads as another.
* C51, C52, C76: an empty label is read back as none; a header that is not
  recognised silently reads nothing; an unclosed quote swallows the rest.
* C80: `MutEdgeType::unwrap_edge` panics on every handle. C81: raw access breaks
  symmetry, counts and leaves dangling edges.

