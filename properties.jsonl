{"id": "C01", "title": "Label interning is a bijection", "statement": "After any sequence of add_item, pop_item and clear on a SetMap built by any of its constructors, the stored items are pairwise distinct, find_index(x)=Some(i) exactly when get_item(i)=Some(x), contains(x) says whether find_index finds x, get_item(i) is Some exactly for i < len, and items()/items_vec() list the items in index order.", "quantifier": "every operation history and every item type with lawful equality", "why_tests_cant": "the claim is about all interleavings of inserts and pops; a test only checks a few literal sequences", "anchors": ["src/map/set_map.rs: SetMap, add_item, get_item, find_index, pop_item, items"]}
{"id": "C02", "title": "Interned ids are stable", "statement": "add_item(x) returns an index i with get_item(i)=Some(x); adding an item that is present changes nothing and returns its index; adding a new one appends it at index len; and every index handed out earlier keeps denoting the same item for as long as it is not popped or cleared.", "quantifier": "every history before and after the insertion and every item", "why_tests_cant": "needs all later histories, which are unbounded", "anchors": ["src/map/set_map.rs: add_item", "src/map/vec_map.rs: add_item"]}
{"id": "C03", "title": "VecMap and SetMap are interchangeable", "statement": "Starting empty, the same sequence of operations gives the same answers (returned indices, lookups, lengths, popped items) on VecMap and on SetMap, and converting one into the other keeps every index; a VecMap built from a raw vector with repeated items is the exception: converting it to a SetMap drops the repeats and shifts indices.", "quantifier": "every operation history; every item vector", "why_tests_cant": "observational equivalence over all histories", "anchors": ["src/map/set_map.rs: From<VecMap>", "src/map/vec_map.rs: find_index, add_item, From<SetMap>, with_data"]}
{"id": "C04", "title": "Bulk label construction keeps first-occurrence order", "statement": "SetMap::from_vec, collect(), From<Vec> and the setmap! macro produce the same map: the distinct items in order of first occurrence.", "quantifier": "every input vector", "why_tests_cant": "ranges over all vectors including repeats at every position", "anchors": ["src/map/set_map.rs: from_vec, FromIterator, From<Vec<L>>, setmap!"]}
{"id": "C05", "title": "Node lookups follow the history", "statement": "After any history of graph operations has_node(n) and get_node_label(n) return exactly what a plain map from id to optional label would hold after the same history: add_node inserts or overwrites the label (also with None), add_edge inserts missing endpoints unlabelled, remove_node deletes, update_node_label overwrites only existing nodes.", "quantifier": "every history of public mutators, directed and undirected, every id width, as long as the number of distinct labels fits the label-id type", "why_tests_cant": "histories are unbounded and interact through label interning and auto-created endpoints", "anchors": ["src/graph_impl/graph_map/graph.rs: add_node, remove_node, add_edge, update_node_label, has_node", "src/generic/graph.rs: get_node_label"]}
{"id": "C06", "title": "Edge lookups follow the history", "statement": "After any history has_edge(s,t) and get_edge_label(s,t) return what a plain map from ordered pairs to optional labels would hold after the same history, where add_edge/remove_edge on an undirected graph act on both orientations and remove_node deletes every incident edge and no other.", "quantifier": "every history of public mutators, directed and undirected, labels fitting the label-id type", "why_tests_cant": "same as C05", "anchors": ["src/graph_impl/graph_map/graph.rs: add_edge, remove_edge, remove_node, update_edge_label, has_edge, get_edge", "src/generic/graph.rs: get_edge_label"]}
{"id": "C07", "title": "Return values report what happened", "statement": "add_node returns true exactly when the id was absent; add_edge returns true exactly when the edge was absent; update_node_label and update_edge_label return true exactly when the node or edge exists (and otherwise change nothing); remove_edge returns the removed edge with its label, or None and no change; remove_node returns the removed node, or None and no change.", "quantifier": "every reachable graph and every argument", "why_tests_cant": "return value and effect must agree in every reachable state", "anchors": ["src/graph_impl/graph_map/graph.rs: add_node, add_edge, remove_edge, remove_node, update_node_label, update_edge_label"]}
{"id": "C08", "title": "Undirected edges are symmetric", "statement": "On an undirected graph has_edge(s,t)=has_edge(t,s) and both orientations carry the same label.", "quantifier": "every undirected history", "why_tests_cant": "one asymmetric update in a long history breaks it; get_edge_mut/edges_mut do exactly that", "anchors": ["src/graph_impl/graph_map/graph.rs: add_edge, remove_edge, get_edge_mut, edges_mut"]}
{"id": "C09", "title": "Neighbour lists describe the edge relation", "statement": "neighbors(n) is strictly increasing and holds exactly the t with has_edge(n,t); in_neighbors(n) of a directed graph is strictly increasing and holds exactly the s with has_edge(s,n); degree and in_degree are their lengths; all of them panic exactly when n is not a node.", "quantifier": "every reachable graph and node", "why_tests_cant": "the in-edge index is redundant state that every mutator must keep in step", "anchors": ["src/graph_impl/graph_map/graph.rs: neighbors, neighbors_iter, degree, in_neighbors, in_degree", "src/graph_impl/graph_map/node.rs: neighbors, in_neighbors"]}
{"id": "C10", "title": "No dangling edges", "statement": "Both endpoints of every edge are nodes of the graph, as long as only calls of the graph itself change it (for raw access to node records see C81).", "quantifier": "every graph reachable through calls of the graph", "why_tests_cant": "one missed clean-up in any history breaks it", "anchors": ["src/graph_impl/graph_map/graph.rs: add_edge, remove_node"]}
{"id": "C11", "title": "Enumerations are complete and duplicate free", "statement": "node_indices lists each node once and node_count is their number; edge_indices lists each directed edge once, and each undirected edge once with start <= target; nodes() and edges() list the same nodes and edges with exactly the data get_node and get_edge return.", "quantifier": "every reachable graph under every hash iteration order", "why_tests_cant": "hash order is unspecified and every edge set is possible", "anchors": ["src/graph_impl/graph_map/graph.rs: node_indices, edge_indices, nodes, edges, node_count"]}
{"id": "C12", "title": "edge_count is the number of edges", "statement": "edge_count() equals the number of edges the graph enumerates.", "quantifier": "every history", "why_tests_cant": "fails only for histories that re-add or relabel an edge: add_edge and update_edge_label bump the counter even when the edge exists; the exact drift is a function of the whole history", "anchors": ["src/graph_impl/graph_map/graph.rs: add_edge, update_edge_label, remove_edge, remove_node, refine_edge_count, edge_count"]}
{"id": "C13", "title": "Mutators do not panic", "statement": "No public mutator panics on a graph reached through the API.", "quantifier": "every reachable graph and every argument", "why_tests_cant": "false for exactly one family of states: remove_node of a node carrying a self loop unwraps a missing entry; all other calls must be shown safe in all states", "anchors": ["src/graph_impl/graph_map/graph.rs: remove_node, add_edge, remove_edge"]}
{"id": "C14", "title": "max_seen_id is the high-water mark", "statement": "max_seen_id() is the largest id ever inserted (directly or as an endpoint), None if none was; it never decreases and bounds every present id.", "quantifier": "every history", "why_tests_cant": "is a property of the whole history, not of the current graph", "anchors": ["src/graph_impl/graph_map/graph.rs: add_node, max_seen_id"]}
{"id": "C15", "title": "Handshake identities", "statement": "In a directed graph the degrees and the in-degrees both sum to the number of edges; in an undirected graph the degrees plus the number of self loops sum to twice the number of edges.", "quantifier": "every reachable graph", "why_tests_cant": "aggregate identity over unbounded graphs", "anchors": ["src/graph_impl/graph_map/graph.rs: degree, in_degree, edge_indices"]}
{"id": "C16", "title": "Label ids are canonical", "statement": "Two nodes (or two edges) that were given labels share a label id exactly when they carry equal labels, as long as the distinct labels fit the label-id type; past that capacity ids wrap around and distinct labels collide.", "quantifier": "every history, every label-id width", "why_tests_cant": "the wrap-around only shows after more labels than the id type can hold", "anchors": ["src/graph_impl/graph_map/graph.rs: add_node, add_edge, add_node_label", "src/map/set_map.rs: add_item", "src/generic/dtype.rs: IdType::new"]}
{"id": "C17", "title": "remove_node returns a faithful record", "statement": "The node returned by remove_node carries the label and the adjacency the node had, and afterwards the graph is the graph induced on the remaining nodes, with edge_count lowered by exactly the number of incident edges.", "quantifier": "every reachable graph and loop-free node", "why_tests_cant": "all degrees and both directions of every incident edge matter", "anchors": ["src/graph_impl/graph_map/graph.rs: remove_node"]}
{"id": "C18", "title": "GraphMap equality means same graph", "statement": "g == h exactly when both have the same nodes, edges and labels.", "quantifier": "every pair of reachable graphs", "why_tests_cant": "false: the size guard uses bitwise not, so == only checks that g is contained in h; symmetry fails", "anchors": ["src/graph_impl/graph_map/graph.rs: PartialEq::eq"]}
{"id": "C19", "title": "Equal graphs hash equally", "statement": "g == h implies that g and h feed the same data to the hasher.", "quantifier": "every pair of reachable graphs", "why_tests_cant": "Hash/Eq contract over all pairs; broken by the containment-only equality, holds for the boxed trait object equality", "anchors": ["src/graph_impl/graph_map/graph.rs: Hash::hash", "src/generic/graph.rs: Hash, equal"]}
{"id": "C20", "title": "generic equal decides graph equality", "statement": "equal(g,h) on general graphs returns true exactly when directedness, counts, node set, edge set and all labels agree, whatever the implementations or label numbering.", "quantifier": "every pair of graphs, each of any implementation", "why_tests_cant": "ranges over all pairs and iteration orders", "anchors": ["src/generic/graph.rs: equal"]}
{"id": "C21", "title": "Label counters count", "statement": "The node and edge label counters map each label (or label id) to the number of nodes or enumerated edges carrying it and contain no other key.", "quantifier": "every reachable graph", "why_tests_cant": "multiset identity over unbounded graphs", "anchors": ["src/generic/graph.rs: get_node_label_id_counter, get_edge_label_id_counter, get_node_label_counter, get_edge_label_counter"]}
{"id": "C22", "title": "Binary search and CSR lookup are exact", "statement": "For a compressed adjacency built from any list of sorted neighbour lists, neighbors, degree, has_edge, find_edge_index and find_edge_label_id return exactly what the lists say, for all arguments in and out of range.", "quantifier": "every adjacency structure, every pair of ids", "why_tests_cant": "binary search and offset arithmetic have boundary cases at every size", "anchors": ["src/graph_impl/static_graph/edge_vec.rs: EdgeVecTrait"]}
{"id": "C23", "title": "Static edge iteration is exact", "statement": "The static edge iterator terminates and yields each directed edge once in order, and for undirected graphs exactly the edges with start <= target once each.", "quantifier": "every well-formed adjacency whose node count fits the id type", "why_tests_cant": "the skip-ahead logic for lower neighbours has many boundary cases", "anchors": ["src/graph_impl/static_graph/static_edge_iter.rs: StaticEdgeIndexIter::next"]}
{"id": "C24", "title": "Freezing keeps the graph", "statement": "For a graph with ids 0..n-1, into_static yields a graph with the same directedness, counts, nodes, edges, neighbours, in-neighbours and labels.", "quantifier": "every reachable dense graph whose label ids stay below the reserved maximum", "why_tests_cant": "conversion rebuilds every structure; must hold for all graphs", "anchors": ["src/graph_impl/graph_map/graph.rs: into_static", "src/graph_impl/static_graph/graph.rs: from_raw, get_node, get_edge"]}
{"id": "C25", "title": "Freezing sparse ids", "statement": "into_static keeps has_edge, neighbours and edge labels for any ids, but has_node, node_indices and node labels are only right when the ids are dense: with a gap, a present node is reported missing and an absent one present.", "quantifier": "every reachable graph", "why_tests_cant": "depends on which ids were ever removed or skipped", "anchors": ["src/graph_impl/graph_map/graph.rs: into_static", "src/graph_impl/static_graph/graph.rs: has_node, node_indices"]}
{"id": "C26", "title": "into_static fails exactly on the empty graph and the largest id", "statement": "into_static panics exactly when the graph has no node or contains the largest representable id.", "quantifier": "every reachable graph, every id width", "why_tests_cant": "the overflow needs a node with id MAX", "anchors": ["src/graph_impl/graph_map/graph.rs: into_static", "src/generic/dtype.rs: increment"]}
{"id": "C27", "title": "Static edges() agrees with get_edge", "statement": "Every edge listed by edges() of a static graph carries the label get_edge reports for it.", "quantifier": "every static graph", "why_tests_cant": "true for directed graphs; false for labelled undirected graphs because the label array is zipped with the filtered edge list", "anchors": ["src/graph_impl/static_graph/graph.rs: edges", "src/graph_impl/static_graph/mmap/graph_mmap.rs: edges"]}
{"id": "C28", "title": "Static label removal only removes labels", "statement": "remove_node_labels, remove_edge_labels and remove_labels leave every structural query unchanged and make the corresponding label queries return None.", "quantifier": "every static graph", "why_tests_cant": "must hold for every graph and query", "anchors": ["src/graph_impl/static_graph/graph.rs: remove_node_labels, remove_edge_labels, remove_labels"]}
{"id": "C29", "title": "Reordering is an isomorphism", "statement": "reorder_id returns a graph isomorphic to the input through the reported id map, with every node and edge keeping its label.", "quantifier": "every reachable graph with symmetric labels, every choice of flags, every tie-breaking and hash order", "why_tests_cant": "permutation of unbounded data under unspecified tie breaks", "anchors": ["src/graph_impl/graph_map/graph.rs: reorder_id, reorder_id_with, reorder_label_map"]}
{"id": "C30", "title": "Reordering sorts", "statement": "With node reordering the new ids are 0..n-1 in non-decreasing order of degree (plus in-degree), and find_new_node_id / get_original_node_id are mutually inverse; with label reordering label ids are dense and ordered by non-decreasing frequency.", "quantifier": "every reachable graph, every tie-breaking", "why_tests_cant": "ordering over all graphs", "anchors": ["src/graph_impl/graph_map/graph.rs: reorder_id, ReorderResult"]}
{"id": "C31", "title": "BFS visits everything once", "statement": "Iterating a Bfs ends and yields every node of the graph exactly once, first the start node.", "quantifier": "every graph and start node, every implementation satisfying the trait contract", "why_tests_cant": "termination and exactly-once over unbounded graphs", "anchors": ["src/algorithm/bfs.rs: Bfs::new, next, next_unvisited_node"]}
{"id": "C32", "title": "BFS is breadth first", "statement": "Before any restart BFS yields exactly the nodes reachable from the start, in non-decreasing order of distance from it.", "quantifier": "every graph and start node", "why_tests_cant": "shortest-path claim over unbounded graphs", "anchors": ["src/algorithm/bfs.rs: next"]}
{"id": "C33", "title": "DFS visits everything once", "statement": "Iterating a Dfs ends and yields every node exactly once, first the start node and then exactly the nodes reachable from it before any restart.", "quantifier": "every graph and start node", "why_tests_cant": "as C31", "anchors": ["src/algorithm/dfs.rs: Dfs"]}
{"id": "C34", "title": "DFS order is depth first", "statement": "The nodes are yielded in a depth-first order of the graph.", "quantifier": "every graph and start node", "why_tests_cant": "false: nodes are marked when pushed, so an early-pushed node is visited after its stack siblings even if a deeper node leads to it", "anchors": ["src/algorithm/dfs.rs: next"]}
{"id": "C35", "title": "ConnComp decides connectivity", "statement": "After processing any sequence of edges, is_connected(a,b) is true exactly when both occurred in an edge and are linked by a path of processed edges ignoring direction.", "quantifier": "every edge sequence and pair of ids", "why_tests_cant": "union-find correctness over all sequences", "anchors": ["src/algorithm/conn_comp.rs: process_new_edge, is_connected, get_root"]}
{"id": "C36", "title": "ConnComp counts components", "statement": "get_count equals the number of connected components among the nodes that occurred in an edge, and get_connected_nodes(n) lists exactly the nodes connected to n, each once.", "quantifier": "every edge sequence", "why_tests_cant": "as C35; isolated nodes of a graph are never counted", "anchors": ["src/algorithm/conn_comp.rs: get_count, get_connected_nodes"]}
{"id": "C37", "title": "Root queries are total and invisible", "statement": "get_root terminates on every node that occurred in an edge and returns the same root for connected nodes; queries compress paths but never change any later answer; asking for an unknown node panics instead of returning None.", "quantifier": "every edge sequence interleaved with any queries", "why_tests_cant": "termination depends on an acyclicity invariant under mutation by reads", "anchors": ["src/algorithm/conn_comp.rs: get_root"]}
{"id": "C38", "title": "Connectivity is order independent", "statement": "The connectivity answers and the count do not depend on the order or orientation in which edges are processed.", "quantifier": "every edge sequence and permutation of it", "why_tests_cant": "all permutations", "anchors": ["src/algorithm/conn_comp.rs: process_new_edge"]}
{"id": "C39", "title": "ConnSubgraph partitions the graph", "statement": "ConnSubgraph returns one graph per connected component; together they contain every node, edge and label of the input exactly once, and each one is connected.", "quantifier": "every graph without isolated nodes", "why_tests_cant": "unbounded graphs; with an isolated node the call panics, which the statement must exclude", "anchors": ["src/algorithm/conn_subgraphs.rs: ConnSubgraph"]}
{"id": "C40", "title": "graph_union is a right-biased union", "statement": "graph_union(a,b) has the nodes and edges of both; labels come from b where b has the element (even if b's label is None) and from a otherwise; directedness is a's.", "quantifier": "every pair of graphs of equal directedness", "why_tests_cant": "all pairs and overlaps; edge_count double counts shared edges", "anchors": ["src/algorithm/graph_union.rs: graph_union, add_graph!"]}
{"id": "C41", "title": "graph_minus keeps the rest", "statement": "graph_minus(a,b) is the subgraph of a induced on the nodes not in b, labels kept; it panics exactly when a node shared with b has a self loop in a.", "quantifier": "every pair of graphs", "why_tests_cant": "all pairs and overlaps", "anchors": ["src/algorithm/graph_minus.rs: graph_minus, sub_graph!"]}
{"id": "C42", "title": "Cloning a boxed graph gives an equal graph", "statement": "clone() of a boxed general graph is equal (nodes, edges, labels, directedness) to the original and has an exact edge_count.", "quantifier": "every graph of any implementation", "why_tests_cant": "all graphs", "anchors": ["src/generic/graph.rs: Clone for Box<GeneralGraph>"]}
{"id": "C43", "title": "Generated graphs have the promised shape", "statement": "empty_graph(n) has nodes 0..n-1 and no edges; complete_graph(n) additionally has an edge between every two distinct nodes and no self loop, n(n-1)/2 undirected or n(n-1) directed; labels come from the given lists.", "quantifier": "every n that fits the id type, every label list, every random outcome", "why_tests_cant": "all sizes and all random streams", "anchors": ["src/graph_gen/general.rs: empty_graph, complete_graph", "src/graph_gen/helper.rs: complete_edge_pairs, random_node_label, random_edge_label"]}
{"id": "C44", "title": "G(n,m) has exactly m edges", "statement": "random_gnm_graph(n,m) has n nodes, exactly m distinct edges, no self loop, and panics exactly when m exceeds the number of possible edges.", "quantifier": "every n that fits the id type (beyond that C71), every m and every random stream", "why_tests_cant": "all random streams", "anchors": ["src/graph_gen/random.rs: random_gnm_graph"]}
{"id": "C45", "title": "G(n,p) is a simple graph", "statement": "random_gnp_graph(n,p) has n nodes and a loop-free subset of the complete graph's edges, none for p=0 and all for p=1; it panics exactly for p outside [0,1].", "quantifier": "every n that fits the id type (beyond that C71), every p and every random stream", "why_tests_cant": "all random streams", "anchors": ["src/graph_gen/random.rs: random_gnp_graph"]}
{"id": "C46", "title": "Binary export/import round trips", "statement": "import(export(x)) gives back x for label maps, GraphMap and StaticGraph (same answers to every query).", "quantifier": "every reachable graph and label type with a lawful codec", "why_tests_cant": "byte-level round trip for all values", "anchors": ["src/io/serde.rs: Serializer::export, Deserializer::import", "src/graph_impl/graph_map/graph.rs: Serialize", "src/graph_impl/static_graph/graph.rs: Serialize"]}
{"id": "C47", "title": "Memory-mapped round trip", "statement": "Dumping a static graph to a prefix with no files and loading it back gives a graph that answers every query alike, provided it has at least one edge.", "quantifier": "every static graph, every file-system content elsewhere", "why_tests_cant": "byte-level layout for all graphs", "anchors": ["src/graph_impl/static_graph/graph.rs: dump_mmap", "src/graph_impl/static_graph/mmap/graph_mmap.rs: StaticGraphMmap::new", "src/graph_impl/static_graph/edge_vec.rs: dump_mmap", "src/graph_impl/static_graph/mmap/edge_vec_mmap.rs: new"]}
{"id": "C48", "title": "Dump overwrites", "statement": "Dumping to a prefix and loading it back gives the dumped graph whatever was stored under the prefix before.", "quantifier": "every pair of graphs dumped to the same prefix", "why_tests_cant": "false: label and in-edge files of an earlier dump survive and are picked up", "anchors": ["src/graph_impl/static_graph/graph.rs: dump_mmap", "src/graph_impl/static_graph/edge_vec.rs: dump_mmap"]}
{"id": "C49", "title": "Byte dump is complete and typed views stay in bounds", "statement": "dump writes exactly the bytes of the slice for every length; the full view of a mapped file never exceeds the file and equals the dumped elements; range views are in bounds exactly when the requested range is within the length.", "quantifier": "every slice length and element size, every range", "why_tests_cant": "chunk boundaries at every multiple of 10000; unchecked unsafe slices", "anchors": ["src/io/mmap.rs: dump, typed_as_byte_slice, TypedMemoryMap"]}
{"id": "C50", "title": "Mmap and in-memory static graphs answer alike", "statement": "On the same arrays StaticGraphMmap and StaticGraph give the same answers; has_edge from a non-existent start is the exception (panic instead of false).", "quantifier": "every static graph and every query", "why_tests_cant": "all graphs and arguments", "anchors": ["src/graph_impl/static_graph/mmap/graph_mmap.rs: GraphTrait impl", "src/graph_impl/static_graph/graph.rs: GraphTrait impl"]}
{"id": "C51", "title": "CSV round trip", "statement": "Writing a graph to CSV and reading it into an empty graph of the same kind gives a graph with the same nodes, edges and labels, provided no label serialises to an empty field.", "quantifier": "every graph and every iteration order", "why_tests_cant": "record-level round trip for all graphs; an empty label silently becomes None", "anchors": ["src/io/csv/writer.rs: write", "src/io/csv/reader.rs: read", "src/io/csv/record.rs"]}
{"id": "C52", "title": "CSV reader skips bad rows only", "statement": "Reading adds exactly the rows whose ids parse, in order; a row with an unparsable or missing id is skipped and changes nothing else; an unparsable or missing label means no label.", "quantifier": "every file content", "why_tests_cant": "all malformed rows at all positions", "anchors": ["src/io/csv/reader.rs: read, node_iter, edge_iter", "src/io/csv/record.rs: visit_seq, visit_map"]}
{"id": "C53", "title": "LDBC ids are dense and injective", "statement": "Loading LDBC files assigns ids 0,1,2,... to distinct (kind, key) pairs with digit keys, the same pair always gets the same id, and every record is represented.", "quantifier": "every sequence of records", "why_tests_cant": "id assignment threads state through all files", "anchors": ["src/io/ldbc/node.rs: add_node", "src/io/ldbc/relation.rs: add_edge"]}
{"id": "C54", "title": "LDBC loads each record once", "statement": "Each relation record contributes one edge to edge_count.", "quantifier": "every directory content", "why_tests_cant": "false: two relations are registered twice, so their files are read twice and edge_count drifts", "anchors": ["src/io/ldbc/scheme.rs: Scheme::init, from_path"]}
{"id": "C55", "title": "Crash during dump", "statement": "If dump_mmap is interrupted at any point, loading the prefix never silently yields a different graph.", "quantifier": "every crash point of every dump", "why_tests_cant": "crash points; false: files carry no completion marker", "anchors": ["src/graph_impl/static_graph/graph.rs: dump_mmap", "src/graph_impl/static_graph/mmap/graph_mmap.rs: StaticGraphMmap::new"]}
{"id": "C56", "title": "Mutable references change one thing", "statement": "set_label_id through get_node_mut/get_edge_mut/nodes_mut/edges_mut changes the addressed label id(s) and nothing else: structure, counts, other labels and the label maps stay the same.", "quantifier": "every reachable graph", "why_tests_cant": "frame condition over all states", "anchors": ["src/graph_impl/graph_map/graph.rs: get_node_mut, get_edge_mut, nodes_mut, edges_mut"]}
{"id": "C57", "title": "Implementation names and separators parse as documented", "statement": "GraphImpl::from_str accepts exactly the three names in any letter case; CSV separators comma, space, tab and any one-byte string are accepted, everything else is rejected.", "quantifier": "every string", "why_tests_cant": "all strings", "anchors": ["src/graph_impl/mod.rs: from_str", "src/io/csv/reader.rs: with_separator"]}
{"id": "C58", "title": "from_edges builds exactly the listed edges", "statement": "from_edges(es) never panics and yields a graph whose edges are exactly the listed pairs (both orientations if undirected), whose nodes are exactly their endpoints, with no labels.", "quantifier": "every edge list, directed and undirected", "why_tests_cant": "all lists", "anchors": ["src/graph_impl/graph_map/graph.rs: from_edges"]}
{"id": "C59", "title": "remove_node panics exactly on self loops", "statement": "remove_node(n) panics if n has a self loop and in no other case.", "quantifier": "every reachable graph and id", "why_tests_cant": "a characterisation of all panicking calls", "anchors": ["src/graph_impl/graph_map/graph.rs: remove_node"]}
{"id": "C60", "title": "edge_count exactly accounts for redundant insertions", "statement": "edge_count() equals the number of edges plus the number of add_edge/update_edge_label calls since the last refine_edge_count that found the edge present; right after refine_edge_count it is exact.", "quantifier": "every history", "why_tests_cant": "the counter's value depends on the whole history", "anchors": ["src/graph_impl/graph_map/graph.rs: add_edge, update_edge_label, refine_edge_count, edge_count"]}
{"id": "C61", "title": "Typed == is exactly labelled containment", "statement": "g == h on typed graphs of one kind never panics and is true exactly when every node and edge of g is in h with the same label (so it is not symmetric).", "quantifier": "every pair of graphs of one kind; if counts add up to exactly usize::MAX the answer is false", "why_tests_cant": "characterises the operator on all pairs; the written count test negates bits instead of the comparison", "anchors": ["src/graph_impl/graph_map/graph.rs: PartialEq", "src/graph_impl/static_graph/graph.rs: PartialEq"]}
{"id": "C62", "title": "Static edge iteration never ends at the full id range", "statement": "If the compressed adjacency has as many rows as the id type has values, the row counter wraps around when converted to an id and edge iteration never ends.", "quantifier": "every adjacency with that many rows, directed or not", "why_tests_cant": "non-termination; needs a graph with as many nodes as ids", "anchors": ["src/graph_impl/static_graph/static_edge_iter.rs: StaticEdgeIndexIter::next"]}
{"id": "C63", "title": "Default counts of static graphs", "statement": "A static graph constructed without counts has one node per row; its edge_count is the number of edges if directed, and if undirected exactly when it has no self loop; explicit counts are kept; construction fails exactly for directed graphs without in-edges.", "quantifier": "every sound adjacency", "why_tests_cant": "counting argument over all graphs", "anchors": ["src/graph_impl/static_graph/graph.rs: new, with_labels"]}
{"id": "C64", "title": "A cleared adjacency cannot be queried", "statement": "After EdgeVec::clear every query (num_nodes, has_node, neighbors, degree, has_edge, find_edge_index) panics instead of answering for an empty graph.", "quantifier": "every adjacency, every argument", "why_tests_cant": "holds for all arguments", "anchors": ["src/graph_impl/static_graph/edge_vec.rs: clear, num_nodes"]}
{"id": "C65", "title": "reorder_id_with panics exactly on uncovered ids", "statement": "reorder_id_with with maps without repeats succeeds exactly if the id map lists every node, each label map lists every label id in use, and every listed label id is an index of the old label map; then the result is isomorphic, a node's new id being its index in the map.", "quantifier": "every reachable graph and all maps", "why_tests_cant": "characterises all panicking calls; the map contents range over all lists", "anchors": ["src/graph_impl/graph_map/graph.rs: reorder_id_with, reorder_label_map"]}
{"id": "C66", "title": "Complete visiting order of the searches", "statement": "Bfs and Dfs yield the graph in segments: the first starts at the given node, each later one at the smallest node not visited yet, and a segment holds the nodes reachable from its start and not visited before. Within a segment Bfs visits nodes in the order of discovery and Dfs visits the last discovered node first, the neighbours of a node being discovered by ascending id.", "quantifier": "every graph and start node, every implementation satisfying the trait contract", "why_tests_cant": "pins the whole order, over unbounded graphs, so any change of order is a counterexample", "anchors": ["src/algorithm/bfs.rs: Bfs::next", "src/algorithm/dfs.rs: Dfs::next"]}
{"id": "C67", "title": "Dfs reset starts afresh", "statement": "After reset a Dfs, whatever it did before, yields every node exactly once again, beginning at the smallest one.", "quantifier": "every graph, every sequence of next and reset calls", "why_tests_cant": "all interleavings", "anchors": ["src/algorithm/dfs.rs: Dfs::reset"]}
{"id": "C68", "title": "Structure and edge_count of graph_union", "statement": "Whatever the labels, graph_union(a,b) has exactly the nodes and edges of both graphs and never panics, and its edge_count is the sum of the numbers of edges of a and b, so shared edges count twice.", "quantifier": "every pair of graphs of equal directedness", "why_tests_cant": "a counter discrepancy present in every overlapping pair", "anchors": ["src/algorithm/graph_union.rs: graph_union, add_graph!"]}
{"id": "C69", "title": "G(n,p) with NaN", "statement": "random_gnp_graph with p = NaN does not panic: NaN passes the range test and the result is the graph without edges.", "quantifier": "every n that fits, every random stream", "why_tests_cant": "the range test looks exhaustive; all streams", "anchors": ["src/graph_gen/random.rs: random_gnp_graph"]}
{"id": "C71", "title": "Generators wrap around when ids run out", "statement": "complete_graph asked for more nodes than the id type has ids does not panic: the node ids wrap around, every id is a node, node 0 gets a self loop, and edge_count is that of the requested size although fewer edges exist. In general every generator, whatever the size, holds exactly the images of the pairs it chose under wrapping and counts the pairs.", "quantifier": "every size, every random stream", "why_tests_cant": "needs sizes above the id type's range", "anchors": ["src/graph_gen/general.rs: complete_graph", "src/graph_gen/helper.rs: complete_edge_pairs"]}
{"id": "C72", "title": "Every random outcome is possible", "statement": "For every loop-free set of m edges some random stream makes random_gnm_graph(n,m) produce exactly it; likewise every loop-free edge set for random_gnp_graph with 0 < p < 1, and every label of the given lists can be drawn.", "quantifier": "every n that fits, every edge set", "why_tests_cant": "existence of a stream for each of exponentially many outcomes", "anchors": ["src/graph_gen/random.rs: random_gnm_graph, random_gnp_graph"]}
{"id": "C70", "title": "Moving a depth-first search", "statement": "Dfs::move_to keeps what has been discovered but drops the nodes waiting on the stack: after a search begun at s0 has yielded V, move_to(s) makes it yield s first and then exactly the nodes that are not s0, not in V and not out-neighbours of V, each once, in the order of a depth-first search of the graph on these nodes. It panics exactly for a missing start node.", "quantifier": "every graph, every number of steps before the move, every target", "why_tests_cant": "states are searches interrupted anywhere; the lost nodes only show on a complete traversal", "anchors": ["src/algorithm/graph_traversal/dfs.rs: move_to, next"]}
{"id": "C73", "title": "Cut-off exports are refused", "statement": "A file that holds only a strict beginning of an exported label map, GraphMap or StaticGraph never imports.", "quantifier": "every reachable graph, every cut position", "why_tests_cant": "every cut position of every value", "anchors": ["src/io/serde.rs: Deserializer::import", "src/io/serde.rs: Serializer::export"]}
{"id": "C74", "title": "Which writers report a full disk", "statement": "export reports success although bytes were lost, whenever the value fits the 8 KiB write buffer; dump reports success exactly if all bytes are in the file.", "quantifier": "every value, every amount of space", "why_tests_cant": "needs a disk that fills up at every byte", "anchors": ["src/io/serde.rs: Serializer::export", "src/io/mmap.rs: dump", "src/graph_impl/static_graph/graph.rs: dump_mmap"]}
{"id": "C75", "title": "Exports do not record directedness", "statement": "Importing an exported GraphMap as the other kind succeeds with every field kept; if the graph had an edge without its reverse, the result is a graph no sequence of calls can build.", "quantifier": "every reachable graph", "why_tests_cant": "holds for all graphs; needs an invariant to state the damage", "anchors": ["src/io/serde.rs: Deserializer::import", "src/graph_impl/graph_map/graph.rs: Serialize"]}
{"id": "C76", "title": "A bad CSV header silently reads nothing", "statement": "With headers, a node file whose header has an unknown or repeated column or lacks nodeId:ID, and an edge file whose header has an unknown or repeated column or lacks :START_ID or :END_ID, contributes no record at all, and read still succeeds.", "quantifier": "every header and file content", "why_tests_cant": "each row fails on its own and is skipped, so no error ever surfaces", "anchors": ["src/io/csv/record.rs: visit_map", "src/io/csv/reader.rs: read"]}
{"id": "C77", "title": "LDBC keeps one edge per pair of nodes", "statement": "When several relation records of an LDBC directory connect the same two nodes, the graph has one edge between them, labelled by the last record in reading order (scheme order, then directory order).", "quantifier": "every directory and scheme", "why_tests_cant": "which relation survives depends on the order of the scheme and of the directory listing", "anchors": ["src/io/ldbc/scheme.rs: Scheme::init, from_path", "src/io/ldbc/relation.rs: add_edge"]}
{"id": "C78", "title": "LDBC loading outcome", "statement": "Loading an LDBC directory whose files have the needed columns panics if there are more keys than ids before the first bad row, returns an error if there is a bad row, and otherwise gives a graph.", "quantifier": "every directory, scheme and id width", "why_tests_cant": "a bad row may be anywhere in any file, and overflow needs as many keys as there are ids", "anchors": ["src/io/ldbc/scheme.rs: from_path", "src/io/ldbc/mod.rs: read_ldbc_from_path"]}
{"id": "C79", "title": "Read handles", "statement": "get_node(n) is some exactly when has_node(n), get_edge(s,t) exactly when has_edge(s,t); a present handle reports the id or end points it was asked for and the label the graph reports; an absent one gives no label and panics on the rest; nodes() and edges() yield the handles get_node and get_edge return.", "quantifier": "every reachable mutable graph, every frozen graph with consistent arrays, every id", "why_tests_cant": "an inconsistent handle shows only for particular ids and labels", "anchors": ["src/generic/node.rs: NodeType", "src/generic/edge.rs: EdgeType", "src/graph_impl/graph_map/graph.rs: get_node, get_edge, nodes, edges", "src/graph_impl/static_graph/graph.rs: get_node, get_edge, nodes"]}
{"id": "C80", "title": "Mutable and owned handles", "statement": "get_node_mut and get_edge_mut are some exactly for the nodes and edges; nodes_mut and edges_mut hand out each node and edge once; remove_node and remove_edge return the handle of what they removed; set_label_id through a handle panics exactly on an absent one and otherwise is visible afterwards; MutEdgeType::unwrap_edge always panics.", "quantifier": "every reachable graph, id and label id", "why_tests_cant": "handles are used one at a time in tests, on present nodes", "anchors": ["src/generic/node.rs: MutNodeType, OwnedNodeType", "src/generic/edge.rs: MutEdgeType, OwnedEdgeType", "src/graph_impl/graph_map/graph.rs: get_node_mut, get_edge_mut, nodes_mut, edges_mut, remove_node, remove_edge"]}
{"id": "C81", "title": "Raw access to a node record", "statement": "A call on the record behind get_node_mut(n).unwrap_nodemap_ref() changes the adjacency kept in that record and nothing else: add_edge towards an absent node leaves a dangling uncounted edge on which remove_edge and remove_node panic, on undirected graphs it breaks symmetry; the graph's own add_edge is the two raw writes plus one counted edge.", "quantifier": "every graph, present node and raw call", "why_tests_cant": "the damage appears only in later calls", "anchors": ["src/graph_impl/graph_map/node.rs: MutNodeMapTrait", "src/generic/node.rs: unwrap_nodemap_ref"]}
{"id": "C82", "title": "Labels after any history", "statement": "After any history of calls, including writes of raw label ids and more labels than the label-id type can number, the label tables, the stored label id of every node and ordered pair and the labels reported are the ones a plain description of each call predicts.", "quantifier": "every history of non-panicking calls from any start tables", "why_tests_cant": "raw id writes and wrap-around interact with later interning; tests do neither", "anchors": ["src/graph_impl/graph_map/graph.rs: add_node, add_edge, update_node_label, update_edge_label, nodes_mut, edges_mut", "src/map/set_map.rs: add_item"]}
{"id": "C83", "title": "Which labels survive a full label-id type", "statement": "If calls name labels only, an element labelled x reports the label at position index(x) mod (number of label ids); it reports its own label exactly when index(x) fits the label-id type; undirected labels stay symmetric at any number of labels.", "quantifier": "every label-only history", "why_tests_cant": "needs more labels than ids", "anchors": ["src/graph_impl/graph_map/graph.rs: get_node_label, get_edge_label", "src/generic/id.rs: IdType::new"]}
{"id": "C84", "title": "What equal and Hash decide", "statement": "equal(g,h) holds exactly if directedness and both counters agree and g is a labelled subgraph of h; then the graphs are the same exactly if they list equally many edges; the data fed to the hasher are equal exactly for the same labelled graph, so equal boxed graphs hash alike exactly if they list equally many edges and g == h hash alike exactly if h == g too.", "quantifier": "every pair of graphs of any implementations", "why_tests_cant": "counters drift only after redundant insertions", "anchors": ["src/graph_impl/graph_map/graph.rs: PartialEq, Hash", "src/generic/graph.rs: equal, Hash"]}
{"id": "C85", "title": "edges() of a labelled static graph", "statement": "edges() gives the j-th listed edge the j-th stored label, stored labels counted over all arcs; it agrees with get_edge exactly if the j-th listed and j-th stored arc carry the same label for every j.", "quantifier": "every labelled static graph", "why_tests_cant": "the mismatch depends on where arcs fall in the label array", "anchors": ["src/graph_impl/static_graph/graph.rs: edges"]}
{"id": "C86", "title": "Labels of graph_union", "statement": "The label tables of the union hold the labels of both graphs in the order they are met, and an element whose right-biased label is x reports the label at position index(x) mod (number of label ids).", "quantifier": "every pair of graphs of equal directedness, any number of labels", "why_tests_cant": "needs more labels than ids", "anchors": ["src/algorithm/graph_union.rs: graph_union, add_graph!"]}
{"id": "C87", "title": "graph_union of graphs of different directedness", "statement": "graph_union never panics; the result has the directedness of the first graph, the nodes of both, the edges of the first, and s->t for every edge the second lists (both orientations if the first is undirected); edge_count is the sum of the two listings.", "quantifier": "every pair of graphs of any directedness", "why_tests_cant": "the type system allows the mix but no test uses it", "anchors": ["src/algorithm/graph_union.rs: graph_union"]}
{"id": "C88", "title": "write_to_csv then read_from_csv", "statement": "A graph written with write_to_csv and read back with read_from_csv from the two files into a new graph is the same labelled graph, for ids and labels that can be read back from their texts and labels with non-empty text; no other file changes.", "quantifier": "every graph of any implementation, every disk with room", "why_tests_cant": "file contents depend on buffering, quoting and separators together", "anchors": ["src/io/csv/writer.rs: write_to_csv", "src/io/csv/reader.rs: read_from_csv"]}
{"id": "C89", "title": "write_to_csv on a full disk", "statement": "If the disk runs full, write_to_csv may report success although data is missing: each file always holds a beginning of its full text, and on success at most the last 8192 bytes of each are missing.", "quantifier": "every graph, every amount of free room", "why_tests_cant": "needs a full disk; errors on drop are swallowed", "anchors": ["src/io/csv/writer.rs: write_to_csv"]}
{"id": "C90", "title": "Outcomes of read_from_csv", "statement": "read_from_csv panics exactly for a separator text that is none of comma, space, tab and not a single ASCII character; otherwise it reports an error exactly if a named file is missing; the nodes are added although the edge file is missing.", "quantifier": "every disk, separator, path and target graph", "why_tests_cant": "needs a sweep over missing files and separators", "anchors": ["src/io/csv/reader.rs: read_from_csv, CSVReader::new"]}
{"id": "C91", "title": "csv_to_static converts", "statement": "If the CSV files cannot be read, csv_to_static panics and leaves the disk alone; otherwise it converts exactly if there is a node and, with --reorder_nodes, the ids fit, without it the largest id is unused; on a disk with room the written file imports to the graph the CSV files describe, renumbered by a bijection when asked.", "quantifier": "every disk and argument vector", "why_tests_cant": "an end-to-end run over four components", "anchors": ["examples/csv_to_static.rs: main", "src/io/csv/reader.rs: CSVReader::read", "src/graph_impl/graph_map/graph.rs: into_static, reorder_id"]}
{"id": "C92", "title": "csv_to_static ignores --reorder_labels", "statement": "The flag --reorder_labels has no effect: runs with and without it leave the same disk.", "quantifier": "every disk and argument vector", "why_tests_cant": "the flag is accepted silently", "anchors": ["examples/csv_to_static.rs: main"]}
{"id": "C93", "title": "Graphs vary_density exports", "statement": "vary_density runs its loop exactly if there is a node and the nodes are 0..n-1 with n-1 the largest id ever seen. The graphs it exports belong to an initial part of the degrees asked for, all of them if the loop ends; each holds the loaded graph's nodes, labels and edges and, besides them, only unlabelled edges between distinct nodes, as many as the degrees so far ask for.", "quantifier": "every reachable graph, list of degrees and stream of random numbers", "why_tests_cant": "random; depends on the whole stream", "anchors": ["examples/vary_density.rs: main"]}
{"id": "C94", "title": "vary_density overshoots", "statement": "The i-th exported graph has more edges than the target of its degree by the number of edges added for the degrees before; the target is met only for the first degree.", "quantifier": "every reachable graph, list of degrees and stream", "why_tests_cant": "every test with one degree passes", "anchors": ["examples/vary_density.rs: main"]}
{"id": "C95", "title": "When vary_density ends", "statement": "The loop can end exactly if every target exceeds the edges there are, the number of nodes fits the id type and there are enough free pairs; then it ends for every stream in which every pair keeps coming; with too few free pairs it never ends.", "quantifier": "every reachable graph, list of degrees, stream and number of turns", "why_tests_cant": "non-termination cannot be observed", "anchors": ["examples/vary_density.rs: main"]}
{"id": "C96", "title": "Files vary_density leaves", "statement": "With room on the disk vary_density has the outcome of its loop; every exported graph has a file of its own name from which exactly it is imported; no other file changes.", "quantifier": "every disk, reachable graph, list of degrees and stream", "why_tests_cant": "an end-to-end run with random outcomes", "anchors": ["examples/vary_density.rs: main", "src/io/serde.rs: Serializer::export"]}
{"id": "C97", "title": "What was imported can be exported again", "statement": "Whatever import makes of a file, be it written by export or not, can be exported to a disk with room and is imported from there without a difference. For SetMap, VecMap, GraphMap and StaticGraph.", "quantifier": "every file content", "why_tests_cant": "needs arbitrary, also damaged, files", "anchors": ["src/io/serde.rs: Serializer::export, Deserializer::import", "src/map/set_map.rs: Deserialize for SetMap"]}
{"id": "C98", "title": "import checks nothing", "statement": "import asks nothing of how the parts of a value fit together: every GraphMap value whose collections fit into a file is imported from some file, and every importable frozen graph is importable with any other counters; nodes only the counter claims are reported by has_node while asking for their neighbours panics.", "quantifier": "every value and counter", "why_tests_cant": "tests import what was exported", "anchors": ["src/io/serde.rs: Deserializer::import", "src/graph_impl/static_graph/graph.rs: TypedStaticGraph, has_node, neighbors"]}
{"id": "C99", "title": "remove_labels", "statement": "remove_labels panics, leaving the disk alone, if its input cannot be read; otherwise, with room on the disk, it replaces exactly its output file, which is read as a graph with the nodes, edges, degrees and neighbours of the input and without labels.", "quantifier": "every disk, input and output path, also the same one", "why_tests_cant": "an end-to-end run over three components", "anchors": ["examples/remove_labels.rs: main", "src/graph_impl/static_graph/graph.rs: remove_labels"]}
{"id": "C100", "title": "vary_labels", "statement": "vary_labels panics, leaving the disk alone, if its input cannot be read or its nodes carry no labels; otherwise, with room on the disk, it replaces exactly its output file, which is read as the input graph without edge labels, with 11..14 added to the label table, and with the label id of each node kept if its draw is at most 10 and set to the draw otherwise.", "quantifier": "every disk and stream of random numbers", "why_tests_cant": "random; an end-to-end run", "anchors": ["examples/vary_labels.rs: main"]}
{"id": "C101", "title": "Labels reported after vary_labels", "statement": "A redrawn node reports the entry of the label table at the place of its draw: the label drawn if the table held exactly eleven labels, none of them 11..14; no label for the draw 14 if it held fewer than eleven; an old label for the draw 11 if it held more.", "quantifier": "every graph and stream", "why_tests_cant": "label ids are confused with labels; right in the intended setting", "anchors": ["examples/vary_labels.rs: main", "src/generic/graph.rs: get_node_label"]}
{"id": "C102", "title": "stats", "statement": "For a graph frozen from one with the nodes 0..n-1 stats gives the largest degree and, for every label, the number of nodes and edges carrying it; it panics on a graph without nodes; with gaps in the ids the largest degree and the node counts are those of the nodes with ids below the number of nodes, so they can be wrong, while the edge counts are right.", "quantifier": "every reachable graph", "why_tests_cant": "needs graphs of every shape", "anchors": ["examples/stats.rs: main"]}
{"id": "C103", "title": "Equality and hash of label maps", "statement": "Two SetMaps made by any calls are equal exactly if they hold the same labels, in whatever order, though the ids they give agree only if the order does too; the bytes fed to a hasher are the same only for the same order, so equal maps can have different hashes. VecMaps are equal exactly if they hold the same items in the same order, and equal ones feed a hasher alike.", "quantifier": "every two histories of calls", "why_tests_cant": "needs maps filled in different orders", "anchors": ["src/map/set_map.rs: SetMap, Hash for SetMap", "src/map/vec_map.rs: VecMap"]}
{"id": "C104", "title": "static_to_mmap", "statement": "static_to_mmap panics, leaving the disk alone, if its input cannot be read; otherwise it leaves what dump_mmap leaves. Its flag --directed makes no difference. A graph with an edge that is frozen, exported and converted on a disk with room and nothing under the output prefix is loaded as a graph that answers as the frozen one.", "quantifier": "every disk, file content, reachable graph and flag", "why_tests_cant": "an end-to-end run over four components", "anchors": ["examples/static_to_mmap.rs: main", "src/graph_impl/static_graph/graph.rs: dump_mmap"]}
{"id": "C105", "title": "static_to_csv", "statement": "static_to_csv panics, leaving the disk alone, if its input cannot be read as an undirected GraphMap. From the file of an undirected graph without empty labels it makes CSV files that are read back as the same graph. From the file of a directed graph it makes, without complaint, CSV files of exactly the edges that do not go from a larger to a smaller id.", "quantifier": "every disk and reachable graph", "why_tests_cant": "an end-to-end run; the loss shows only for directed input", "anchors": ["examples/static_to_csv.rs: main", "src/io/csv/mod.rs: write_to_csv, read_from_csv"]}
{"id": "C106", "title": "ldbc_to_graphmap", "statement": "ldbc_to_graphmap panics, leaving the disk alone, unless the directory is there, every file it reads is readable and there is an id for every entity; otherwise, with room, it writes exactly one file, named by the directory and the counts (different counts give different names), from which the graph that was read is imported; converted by static_to_csv it is read back as the graph the records describe.", "quantifier": "every directory and disk", "why_tests_cant": "an end-to-end run over three components", "anchors": ["examples/ldbc_to_graphmap.rs: main", "src/io/ldbc/mod.rs: read_ldbc_from_path", "examples/static_to_csv.rs: main"]}
{"id": "C107", "title": "static_to_csv refuses frozen graphs", "statement": "The file of a frozen graph with ids of four bytes is refused by static_to_csv, which reads GraphMaps, whenever the number of offsets is not 0 or 1 modulo 256.", "quantifier": "every reachable graph with a node", "why_tests_cant": "needs files of every size", "anchors": ["examples/static_to_csv.rs: main", "src/io/serde.rs: Deserializer::import"]}
{"id": "C108", "title": "Frozen graphs read with other label types", "statement": "What comes of reading the file of a frozen graph with other label types depends on the two label tables only. Without labels it is read as it was. Text labels on edges only, read as numbers of at most eight bytes, are never refused: the graph comes back with numbers nobody wrote, a single label being replaced by its length. A single text label on nodes that does not begin with a zero byte is refused when read as numbers of four bytes.", "quantifier": "every frozen graph", "why_tests_cant": "csv_to_static writes text labels, static_to_mmap, stats, vary_labels and remove_labels read numbers; unlabelled test data works", "anchors": ["src/io/serde.rs: Deserializer::import", "examples/csv_to_static.rs: main", "examples/static_to_mmap.rs: main"]}
{"id": "C109", "title": "Dumping a graph over other files", "statement": "Whatever files are under the prefix, dump_mmap with room enough succeeds and loading then gives the offsets, edges, counts and label tables of the graph dumped; those of edge labels, in-edges, in-edge labels and node labels that the graph does not have are taken from the files that were there. Where a graph loaded before, the new graph comes back as it is exactly if it has every array the old one had.", "quantifier": "every graph that can be mapped, every disk with room", "why_tests_cant": "needs dumps of graphs of different kinds under one prefix", "anchors": ["src/graph_impl/static_graph/graph.rs: dump_mmap", "src/graph_impl/static_graph/edge_vec.rs: dump_mmap", "src/graph_impl/static_graph/mmap/graph_mmap.rs: new"]}
{"id": "C110", "title": "What loads after an interrupted dump", "statement": "What loads after dump_mmap stopped anywhere, under a prefix without files, is a function of the number of effects (files created and bytes written) that took place: a panic, the graph itself, or a graph with all offsets, the edges, in-edges and labels written so far, counts derived from them and no label names. Stopped within the out-edges it loads, without complaint, as an undirected unlabelled graph with the edges written so far; stopped just before the auxiliary file the arrays are right; stopped within the auxiliary file loading panics.", "quantifier": "every graph that can be mapped, every point of interruption", "why_tests_cant": "needs a crash between any two writes", "anchors": ["src/graph_impl/static_graph/graph.rs: dump_mmap", "src/graph_impl/static_graph/mmap/graph_mmap.rs: new", "src/io/mmap.rs: dump, TypedMemoryMap::new"]}
{"id": "C111", "title": "The randomised tests pass for every outcome", "statement": "random_gnp_graph_unlabeled(n, 0) == empty_graph_unlabeled(n) and random_gnp_graph_unlabeled(n, 1) == complete_graph_unlabeled(n); random_gnm_graph has the requested numbers of nodes and edges; random_gnm_graph(n, m, nl, el) written to CSV files and read back into an empty graph with the label tables nl and el is == to the original. All == hold in both directions, for directed and undirected graphs.", "quantifier": "all numbers of nodes and edges that are possible, all label lists, all outcomes of the random source", "why_tests_cant": "the tests run with fixed numbers and one outcome of the random source per run", "anchors": ["tests/graph_gen.rs: test_random_gnp_graph, test_random_gnm_graph", "tests/io.rs: test_cvs_unlabeled, test_cvs_labeled"]}
{"id": "C112", "title": "Dumps interrupted while writing over another graph", "statement": "What loads after dump_mmap stopped anywhere, whatever files were under the prefix, is a function of what the eight files showed before and of the number of effects that took place. Where a graph loaded before: stopped before the first effect the old graph loads; stopped within the offsets or the edges, what was written of them loads together with everything else of the old graph; stopped before the auxiliary file, the new arrays load with the counts and label names of the old graph; stopped within the auxiliary file neither graph loads.", "quantifier": "every graph that can be mapped, every disk, every point of interruption", "why_tests_cant": "needs a crash between any two writes over an existing dump", "anchors": ["src/graph_impl/static_graph/graph.rs: dump_mmap", "src/graph_impl/static_graph/edge_vec.rs: dump_mmap", "src/graph_impl/static_graph/mmap/graph_mmap.rs: new", "src/io/mmap.rs: dump, TypedMemoryMap::new"]}
{"id": "C113", "title": "What a search yields is determined by the graph", "statement": "The properties of C66 determine the list a Bfs or Dfs yields, so searches of two graphs with the same nodes and edges that begin at the same node yield the same list, whatever implementations the graphs have and however they differ in labels, in what was removed from them and in enumeration order.", "quantifier": "all pairs of graphs with the same nodes and edges, all start nodes", "why_tests_cant": "needs all pairs of graphs and all histories leading to them", "anchors": ["src/algorithm/bfs.rs: Bfs", "src/algorithm/dfs.rs: Dfs"]}
{"id": "C114", "title": "A graph, its frozen form and the mapped one are interchangeable", "statement": "A graph with the ids 0..n-1 and an edge, what into_static makes of it, and what is loaded after that was dumped to a fresh prefix, are pairwise equal by equal(), feed the same data to a hasher, give the same list for a Bfs or Dfs from any node, the same is_connected answers and the same number of components. A graph read back from CSV files is interchangeable with the one written exactly if the edge_count of the latter is right.", "quantifier": "all graphs reached through the API with dense ids, all disks with room, all pairs of nodes", "why_tests_cant": "composes four representations over every graph", "anchors": ["src/graph_impl/graph_map/graph.rs: into_static", "src/graph_impl/static_graph/graph.rs: dump_mmap", "src/graph_impl/static_graph/mmap/graph_mmap.rs: StaticGraphMmap", "src/generic/graph.rs: equal", "src/algorithm/bfs.rs", "src/algorithm/dfs.rs", "src/algorithm/conn_comp.rs"]}
{"id": "C115", "title": "A search of a frozen graph whose ids have gaps", "statement": "A frozen graph with n nodes takes the ids below n for its nodes. So a Bfs or Dfs of the frozen graph visits exactly the ids 0..n-1, in the order of a search of the graph with these ids as nodes and the edges between them; it begins at 0 if no start is given and refuses a start beyond. With gaps in the ids every search leaves out a node of the original graph and visits an id that is none. ConnComp, which reads edges only, gives the answers it gives for the original graph. All this holds too for the mapped graph loaded after dumping.", "quantifier": "all graphs reached through the API that into_static accepts, all starts", "why_tests_cant": "needs every pattern of gaps and every start", "anchors": ["src/graph_impl/graph_map/graph.rs: into_static", "src/graph_impl/static_graph/graph.rs: has_node, node_indices, neighbors_iter, max_seen_id", "src/algorithm/bfs.rs: Bfs", "src/algorithm/dfs.rs: Dfs", "src/algorithm/conn_comp.rs: ConnComp"]}
{"id": "C116", "title": "A guard kept from parent() blocks path compression", "statement": "While a caller keeps the guard parent() returned, get_root answers for a node that is its own parent and panics for every other; is_connected answers if a node is unknown or both are their own parents and panics otherwise; get_connected_nodes answers if the node is unknown or all edges so far were loops and panics otherwise. Without guards the queries are those of C35 to C38.", "quantifier": "every history of edges, queries and resets, all nodes, any number of guards", "why_tests_cant": "the panic depends on how far earlier queries compressed the paths", "anchors": ["src/algorithm/conn_comp.rs: parent, mut_parent, get_root, is_connected, get_connected_nodes"]}
{"id": "C117", "title": "Release builds of the mutable graph", "statement": "Without overflow checks every mutating call has the same outcome as with them, except that the edge counter is kept modulo 2^64; it never wraps below zero, and a program of fewer than 2^64 calls cannot tell the builds apart.", "quantifier": "every history of calls from an empty graph, every id width", "why_tests_cant": "tests run with overflow checks on", "anchors": ["src/graph_impl/graph_map/graph.rs: add_edge, remove_node, remove_edge, update_edge_label, refine_edge_count", "Cargo.toml"]}
{"id": "C118", "title": "Release builds of frozen and mapped graphs", "statement": "Without overflow checks into_static never ends on a graph with the largest id and is the same otherwise; adjacency queries are the same on arrays with at least one usize offset, except that degree returns a number near 2^64 where the offsets go down; without offsets every id below the largest usize counts as a node and row queries panic on the array; max_seen_id of a graph without nodes is the largest id; map[i..] beyond the length makes a slice that reaches beyond the file.", "quantifier": "every graph, every adjacency arrays, every mapped file, every id width", "why_tests_cant": "the differences need an id at its maximum, empty or damaged arrays, or a release build", "anchors": ["src/graph_impl/graph_map/graph.rs: into_static", "src/graph_impl/static_graph/edge_vec.rs: num_nodes, has_node, neighbors, degree, find_edge_index, has_edge", "src/graph_impl/static_graph/graph.rs: max_seen_id", "src/io/mmap.rs: index", "src/generic/dtype.rs: increment"]}
{"id": "C119", "title": "Release builds run LDBC ids around", "statement": "Loading LDBC data without overflow checks gives the same result as with them unless ids run out; then, instead of panicking, every further key is given node 0: it renames node 0 and its relations are attached to node 0.", "quantifier": "every directory, every id width", "why_tests_cant": "needs more keys than ids and a release build", "anchors": ["src/io/ldbc/node.rs: add_node", "src/io/ldbc/relation.rs: add_edge", "src/io/ldbc/scheme.rs: from_path"]}
{"id": "C120", "title": "Boxed graphs of different implementations", "statement": "as_digraph gives something exactly for directed graphs, and for a graph, its frozen and its mapped form it lists the starts of the incoming edges of every node, ascending; as_mut_graph gives something exactly for GraphMap, and a box of another implementation cannot be changed; implementation names the type in the box, and a boxed graph answers as before; the clone of any box is a GraphMap that shows the same labelled graph and feeds the same data to a hasher; boxes of any implementations that show the same graph with the same edge_count are equal.", "quantifier": "every boxed graph that presents a labelled graph; in-neighbours: every reachable directed graph with ids 0..n-1 and its frozen and mapped forms", "why_tests_cant": "tests box GraphMaps only", "anchors": ["src/generic/graph.rs: GeneralGraph, Clone, PartialEq, Hash for Box<GeneralGraph>", "src/graph_impl/graph_map/graph.rs: as_digraph, as_mut_graph", "src/graph_impl/static_graph/graph.rs: as_digraph", "src/graph_impl/static_graph/mmap/graph_mmap.rs: as_digraph"]}
{"id": "C121", "title": "Writing to the parts of a frozen graph", "statement": "Assigning node labels or label tables leaves the structure alone; nodes() stops at the shorter of nodes and labels and get_node panics for exactly the nodes beyond the labels; without in-edges a directed graph panics on in-queries only; without offsets every edge query panics and node queries answer as before; after a dump a graph is directed exactly if it has in-edges, so an undirected graph that was given in-edges comes back directed with every edge twice.", "quantifier": "every frozen graph, every assigned value; the dump: every graph whose arrays can be mapped, every prefix without files, every disk with room", "why_tests_cant": "no test uses the mutable accessors or gives in-edges to an undirected graph", "anchors": ["src/graph_impl/static_graph/graph.rs: get_edge_vec_mut, get_in_edge_vec_mut, get_labels_mut, get_node_label_map_mut, get_edge_label_map_mut, new", "src/graph_impl/static_graph/edge_vec.rs: clear, default", "src/graph_impl/static_graph/mmap/graph_mmap.rs: new, is_directed"]}
{"id": "C122", "title": "What a caught panic leaves behind", "statement": "A call made under catch_unwind returns or panics exactly as without it, and calls that return leave the same graph; on a graph without an earlier panic the only call that panics after changing something is remove_node of a node with a self loop: the node is gone, the other nodes and their labels stay, every edge with both ends elsewhere stays, and of the edges to the removed node exactly those remain that the loop over the neighbours had not reached; the counters are unchanged.", "quantifier": "every reachable graph, every call, every node with a self loop", "why_tests_cant": "no test catches a panic", "anchors": ["src/graph_impl/graph_map/graph.rs: remove_node, remove_edge", "src/graph_impl/graph_map/graph.rs: add_reverse_edge, remove_reverse_edge"]}
{"id": "C123", "title": "Graphs that go on after caught panics", "statement": "For a program that catches every panic and goes on: exactly when remove_node and remove_edge panic, with which panic, what they return and leave; which calls can panic at all; the enumerations, neighbour lists and label tables stay free of repetitions and agree with has_node and has_edge, and every edge starts at a node; no node or edge the history calls for is lost; without update_edge_label the nodes are exactly those of the history. Edges to nodes that are gone, one-sided undirected edges, panics caused by an earlier panic and a counter that underflows do occur.", "quantifier": "every history of calls under catch_unwind, however many of them panicked", "why_tests_cant": "no test catches a panic", "anchors": ["src/graph_impl/graph_map/graph.rs: remove_node, remove_edge, update_edge_label, refine_edge_count"]}
{"id": "C124", "title": "CSV files without quotes", "statement": "A file without quotes is cut at every line feed and carriage return, empty lines are dropped, and every line is cut at every separator; however the lines end, one by one (LF, CR or CRLF), the records and the graph read from them are the same.", "quantifier": "every separator other than a quote or a line end, every file without quotes, every choice of line ends", "why_tests_cant": "the test files all end their lines in one way and have no empty lines", "anchors": ["src/io/csv/reader.rs: read, node_iter, edge_iter"]}
{"id": "C125", "title": "Searches from given parts", "statement": "Dfs::from_parts takes any stack and any bits: if every entry is a node and no bit beyond the ids is taken for a node, the search ends and yields every entry as often as it is in the stack and every node whose bit is set once more, so a waiting node with its bit set comes twice; an entry that is no node makes it panic; a bit beyond the ids that is taken for a node keeps it from ever ending.", "quantifier": "every graph, stack, bit set and number of steps", "why_tests_cant": "the tests start searches only with new", "anchors": ["src/algorithm/dfs.rs: from_parts, next"]}
{"id": "C126", "title": "ConnSubgraph fed other graphs", "statement": "run_subgraph_enumeration may be called with other graphs than the enumerator was made for, and again: one graph per component of the first graph that is met, built from the nodes of that component and the edges that start in it, in order; a node without edges in the first graph makes the run panic; running over the same graph again changes nothing but the edge counts, which grow by the number of edges each time; an edge between two components of the first graph lands with its start, and its end appears in two graphs.", "quantifier": "every first graph and every list of graphs of one directedness, of any implementations", "why_tests_cant": "the tests run the enumeration once, over the graph it was made for", "anchors": ["src/algorithm/conn_subgraphs.rs: empty, run_subgraph_enumeration, process_nodes, process_edges"]}
{"id": "C127", "title": "CSV files with quotes", "statement": "What is read from any file is given by a grammar: fields are bare text or a quoted part followed by bare text, doubled quotes inside quotes stand for one, a quote that is not at the start of a field stands for itself, an unclosed quote runs to the end of the file, lines with nothing on them are skipped; the grammar assigns exactly one list of rows to every text; writing the rows of any file and reading them again gives the same rows; files with the same rows, however quoted, are the same graph.", "quantifier": "every separator other than a quote or a line end, every file content", "why_tests_cant": "the test files have no quotes", "anchors": ["src/io/csv/reader.rs: read, node_iter, edge_iter"]}
{"id": "C128", "title": "Frozen graphs with gaps, passed on", "statement": "A graph frozen with into_static, or mapped from its dump, lists the ids below its number of nodes and all edges, so that edges may have ends that are not listed. A clone of it has the listed nodes with their labels, the unlisted ends of edges as unlabelled nodes, the edges with their labels and an exact edge_count: labels of nodes with ids from the number of nodes on are lost, isolated nodes with such ids are lost, unused smaller ids become nodes. graph_union, graph_minus and writing and reading CSV files treat such graphs the same way; the difference has the nodes not listed in the second graph, without the edges of the second, and panics exactly when a node listed in the second has a self loop in the first.", "quantifier": "every reachable graph that into_static accepts, its mapped form, and every graph behind the traits that lists edges with missing ends", "why_tests_cant": "the tests freeze graphs with ids 0..n-1 only", "anchors": ["src/graph_impl/graph_map/graph.rs: into_static", "src/generic/graph.rs: clone", "src/algorithm/graph_union.rs: graph_union", "src/algorithm/graph_minus.rs: graph_minus", "src/io/csv/writer.rs: write_to_csv"]}
{"id": "C129", "title": "Copies, frozen forms and searches after caught panics", "statement": "A graph map on which panics were caught can still be copied: the clone is a graph no panic ever touched, in which nodes that are gone but still the target of a listed edge are back without a label, edges that edge_indices does not list are gone, everything else is unchanged and edge_count is exact. Frozen with into_static it keeps neighbours and the list of edges, but has_edge denies edges to ids above the largest node. A breadth-first or depth-first search panics exactly if some edge leads to a node that is gone, and otherwise visits every node once.", "quantifier": "every history of calls with caught panics, every start node", "why_tests_cant": "no test catches a panic and goes on with the graph", "anchors": ["src/graph_impl/graph_map/graph.rs: remove_node", "src/generic/graph.rs: clone", "src/graph_impl/graph_map/graph.rs: into_static", "src/algorithm/bfs.rs: next", "src/algorithm/dfs.rs: next"]}
{"id": "C130", "title": "What root queries of ConnComp cost", "statement": "The documentation says each edge costs log(n), so k edges O(k log(n)). The first is wrong: after the edges of the path 0-1-...-N in this order get_root(0) takes (N+1)/2 turns of its loop. The second is right: q root queries among the processing of a list E of edges take at most q(log n + 1) + |E| log n turns altogether, so the detection on a graph with k edges at most k(3 log n + 2). A query takes one turn per two steps to the root, halves the depth of its node and makes no node deeper; the depth is always less than the number of known nodes.", "quantifier": "every sequence of edges and root queries, every layout of the hash map, every path length up to the largest id", "why_tests_cant": "tests do not count turns, and the bound is about all sequences of calls", "anchors": ["src/algorithm/conn_comp.rs: get_root", "src/algorithm/conn_comp.rs: process_new_edge", "src/algorithm/conn_comp.rs: ConnComp (documentation)"]}
{"id": "C131", "title": "A search at any moment", "statement": "When a breadth-first or depth-first search begun at s has yielded V, the nodes waiting in its queue or stack are exactly the nodes not in V that some node of V has an edge to (just s before the first call), each once; exactly the nodes neither yielded nor waiting are marked undiscovered; yielded and waiting nodes together are never more than the graph has. The next call yields the front of the queue (top of the stack), or the smallest node left when none waits, or None when no node is left, which changes nothing. The neighbour lists read by a whole search hold every edge once per direction.", "quantifier": "every graph, every start, every number of calls", "why_tests_cant": "the queue and the bit set are private, tests see only the nodes yielded", "anchors": ["src/algorithm/bfs.rs: next", "src/algorithm/dfs.rs: next"]}
{"id": "C132", "title": "From CSV files to a mapped graph", "statement": "If the CSV files are read as a graph g without labels and with at least one edge, with ids 0..n-1 or the flag --reorder_nodes, and nothing lies under the output prefix, then on a disk with enough room csv_to_static followed by static_to_mmap, with or without the latter's flag --directed, end well, and what they leave loads as a mapped graph with exactly the nodes and edges of g, no labels, the direction asked for from csv_to_static and the edge count of g, under a renaming of the nodes to 0..n-1, which is the identity without the flag.", "quantifier": "every set of CSV files read as an unlabelled graph, every choice of flags, paths and room", "why_tests_cant": "a test would run two programs on a few files; the label types the two programs declare differ", "anchors": ["examples/csv_to_static.rs: main", "examples/static_to_mmap.rs: main", "src/graph_impl/static_graph/graph.rs: dump_mmap"]}
{"id": "C133", "title": "Caught panics in release builds", "statement": "On graphs on which panics were caught, a call in a release build does what it does with overflow checks except to the edge counter, and panics alike except that the counter never panics; so the graphs reachable in the two builds are the same but for the counter. In a release build remove_node panics exactly if a neighbour is the node itself or no node, remove_edge exactly if the target of the edge is no node, and otherwise they return the node and the edge. The counter goes up by one with add_edge and with update_edge_label of an edge, down by one with a remove_edge that removes an edge and does not panic, down by the degrees with a remove_node that does not panic, all modulo 2^64, is set by refine_edge_count, and is left alone by all else. While nothing underflows it is the counter of the other build modulo 2^64; afterwards it can show 2^64 - 1 edges where there are none.", "quantifier": "every graph reachable with panics caught, every counter value, every call", "why_tests_cant": "it takes a caught panic and a build without overflow checks; the tests run neither", "anchors": ["src/graph_impl/graph_map/graph.rs: remove_node, remove_edge, add_edge, update_edge_label, refine_edge_count"]}
{"id": "C134", "title": "Reordering with a map that has repeats", "statement": "reorder_id_with accepts a VecMap, which may list an id more than once. It panics exactly if a map lacks a node id, node label id or edge label id in use, or a label map lists an id twice or an id that has no label; repeated node ids do no harm. If the node map has no more entries than there are ids, the new graph is isomorphic to the old one, the new id of a node being its first position in the map. With more entries the new nodes are the first positions reduced to the id type, so that nodes can be merged and edges lost while edge_count stays.", "quantifier": "every reachable graph, every three maps, with any entries in any order", "why_tests_cant": "maps with repeats are never passed in the tests", "anchors": ["src/graph_impl/graph_map/graph.rs: reorder_id_with, reorder_label_map", "src/map/vec_map.rs: find_index"]}
{"id": "C135", "title": "Laws of graph_union and graph_minus", "statement": "For graphs of any implementation: the two ways of joining three graphs give the same nodes, edges and labels, but equal accepts them as equal only if the first two share as many listed edges as the last two, since edge_count counts a shared edge twice. A graph joined with itself is the same graph with edge_count twice the number of edges. The two orders of joining two graphs agree exactly if labels agree on shared nodes and edges. Taking away two graphs one after the other is taking away their union, panics included. A graph without self loops taken away from itself leaves no node and no edge; with a self loop the call panics. Taking away what was joined leaves what taking it away at once leaves, if it has no self loop, and panics otherwise. Taking a graph away and joining it again gives the union exactly if every edge of the first graph at a node of the second is an edge of the second; equal accepts the two only if there is no such edge.", "quantifier": "all graphs behind the traits that present labelled graphs, all label sets that fit the label id type", "why_tests_cant": "Laws relate several calls on the same inputs; tests compare one call with one expected graph, and the failure of equal only shows with overlapping graphs.", "anchors": ["src/algorithm/graph_union.rs: graph_union", "src/algorithm/graph_minus.rs: graph_minus", "src/generic/graph.rs: equal"]}
{"id": "C136", "title": "Reordering before freezing", "statement": "reorder_id with reorder_node_id set, followed by into_static, succeeds for every graph that has at least one node and fewer nodes than the id type has values. The frozen graph has the ids below the number of nodes, ascending by degree (plus in-degree if directed), and is isomorphic to the original through find_new_node_id, keeping directedness, counts, labels and neighbour lists. Breadth-first and depth-first search on it come by every original node exactly once, after translating with get_original_node_id.", "quantifier": "all reachable graphs, both label flags, all ways of breaking ties", "why_tests_cant": "Frozen graphs with gaps lose nodes in searches (C115), and freezing fails with the largest id in use; that one call repairs both for every graph is beyond a finite set of examples.", "anchors": ["src/graph_impl/graph_map/graph.rs: reorder_id, reorder_id_with, into_static, get_original_node_id, find_new_node_id", "src/algorithm/bfs.rs: Bfs", "src/algorithm/dfs.rs: Dfs"]}
{"id": "C137", "title": "stats on files", "statement": "stats prints its figures for one file after another up to the first that cannot be read or has no nodes, where it panics; if there is none it ends well. It takes every file for an undirected graph: of an exported directed graph it counts, for an edge label, only the edges that do not go from a larger to a smaller id, while the largest degree and the counts of nodes are those it gives for the graph itself.", "quantifier": "every list of files, every disk, every frozen graph reached through the API", "why_tests_cant": "needs directed graphs with edges in both directions and a reader that takes them for undirected ones", "anchors": ["examples/stats.rs: main", "src/graph_impl/static_graph/graph.rs: edge_indices", "src/graph_impl/static_graph/edge_vec.rs: EdgeIter"]}
{"id": "C138", "title": "Detecting components in one graph after another", "statement": "run_detection on a ConnComp that already holds edges never panics and afterwards answers for the earlier edges together with those of the graph. Detecting in one graph and then in another gives the same answers to is_connected, get_count and get_connected_nodes as detecting in the union of the two, also when one is directed and the other not.", "quantifier": "every history of processed edges, every two graphs of any implementation that present a labelled graph", "why_tests_cant": "needs two graphs processed one after the other and the union built of them, for all pairs", "anchors": ["src/algorithm/conn_comp.rs: run_detection, process_edge, is_connected, get_connected_nodes, get_count", "src/algorithm/graph_union.rs: graph_union"]}
{"id": "C139", "title": "Searches of undirected graphs go component by component", "statement": "A breadth-first or depth-first search of an undirected graph visits the connected components one after the other as unbroken segments, the first being that of the start node and each later one starting at the least node not yet visited. get_connected_nodes of a node with an edge lists exactly its segment, and gives nothing for a node of degree zero; the number of components counted and the number of nodes of degree zero add up to the number of segments.", "quantifier": "every undirected graph of any implementation that presents a labelled graph, every start node or none", "why_tests_cant": "ties three algorithms together on graphs with several components and isolated nodes", "anchors": ["src/algorithm/bfs.rs: Bfs::next, next_unvisited_node", "src/algorithm/dfs.rs: Dfs::next", "src/algorithm/conn_comp.rs: ConnComp::new, get_connected_nodes, get_count"]}
{"id": "C140", "title": "Isomorphic graphs are treated alike", "statement": "For two graphs with an isomorphism between them that keeps labels: node counts, numbers of listed edges, degrees and neighbours correspond; components are as many and connectivity of corresponding nodes is the same; as many nodes and edges carry each label; and breadth-first searches from corresponding nodes reach corresponding nodes, where the i-th visited nodes of both are equally far from the start. The graph reorder_id returns is isomorphic to the graph it was given, through find_new_node_id.", "quantifier": "every two graphs of any implementation and any id types that present isomorphic labelled graphs; every reachable graph and every choice of flags for reorder_id", "why_tests_cant": "relates runs of whole algorithms on two graphs, for all isomorphisms", "anchors": ["src/graph_impl/graph_map/graph.rs: reorder_id", "src/algorithm/bfs.rs: Bfs::next", "src/algorithm/conn_comp.rs: ConnComp::new, is_connected, get_count", "src/generic/graph.rs: get_node_label_counter, get_edge_label_counter, degree, neighbors"]}
{"id": "C141", "title": "How likely random graphs are", "statement": "random_gnm_graph picks uniformly: of the equally likely draws of its sampling exactly one in (N choose c) gives a wanted set of c edges out of the N possible ones, whatever the draws for labels are. random_gnp_graph picks every possible edge independently, with the chance that a draw lies below p. Labels of complete_graph and random_gnm_graph are picked by draws of their own: node i by draw i, each edge by a later draw no other edge uses.", "quantifier": "every number of nodes the id type can hold, both graph types, all label lists, every wanted set of edges, every remaining stream of draws; for gnp every p in [0, 1] and every finite list of equally likely draws", "why_tests_cant": "a test can only estimate frequencies on small graphs; the statement counts all draw sequences", "anchors": ["src/graph_gen/random.rs: random_gnm_graph, random_gnp_graph", "src/graph_gen/general.rs: empty_graph, complete_graph", "src/graph_gen/helper.rs: complete_edge_pairs, random_node_label, random_edge_label"]}
{"id": "C142", "title": "The order of calls that do not meet does not matter", "statement": "Two calls meet when they write the same node or edge differently, when one looks for what the other makes or removes, or when one recounts edges the other may count. If a history of calls on a fresh graph does not panic, neither does one got from it by swapping neighbouring calls that do not meet, and both graphs answer every query alike, edge_count and max_seen_id included; label tables hold the same labels. So a history without meeting calls may run in any order, and the rows of the node file and of the edge file of CSV input may come in any order as long as rows about the same node or edge agree.", "quantifier": "every graph type, every starting label table without repeats, all histories without raw label ids and all their reorderings, all CSV settings with headers and all files; answers are compared when label tables fit the label id type", "why_tests_cant": "a test fixes one order; the statement covers every permutation of every history", "anchors": ["src/graph_impl/graph_map/graph.rs: add_node, add_edge, remove_node, remove_edge, update_node_label, update_edge_label, refine_edge_count", "src/io/csv/reader.rs: read"]}
{"id": "C143", "title": "Calls that undo each other", "statement": "Adding an absent edge between present nodes and removing it, removing an edge and adding it with its old label, removing a node without edges and adding it with its old label, giving a node another label and then its old one: none of these panics, and every query answers as before, edge_count and max_seen_id included. Adding an absent node and removing it is the same, but max_seen_id becomes the larger of its old value and the id. Giving an edge another label and then its old one leaves all as before but edge_count, which is two larger than it was.", "quantifier": "every graph built by a history without raw label ids from any label tables without repeats, every node, edge and label; answers are compared when label tables fit the label id type", "why_tests_cant": "round trips are tested on one graph with one edge; leftovers show only in some states", "anchors": ["src/graph_impl/graph_map/graph.rs: add_node, add_edge, remove_node, remove_edge, update_node_label, update_edge_label"]}
{"id": "C144", "title": "How large exported and dumped files are", "statement": "With ids of w bytes and label ids of v bytes, an exported GraphMap takes 2w+17 bytes per node and v more if it is labelled, w+1 bytes per edge and end that lists it and v more if it is labelled, w more per edge of a directed graph, the labels, and 33 bytes, w more once an id was seen. A frozen graph exports to two counts, offsets of 8 bytes for every id up to the largest node and one more, w bytes per edge and end, v more per edge and end if edges are labelled, the offsets and edges again if directed, v bytes per id if nodes are labelled, and the label tables with their lengths. dump_mmap writes files of exactly these parts: offsets, edges, labels, in-offsets, in-edges, node labels, tables; it leaves alone those the graph has no use for, and uses exactly the sum of disk space.", "quantifier": "every reachable graph, every width, all label encodings, every disk", "why_tests_cant": "a test compares a graph with itself read back, not the length of its file", "anchors": ["src/io/serde.rs: Serializer::export", "src/graph_impl/graph_map/graph.rs: TypedGraphMap, into_static", "src/graph_impl/static_graph/graph.rs: TypedStaticGraph, dump_mmap", "src/graph_impl/static_graph/edge_vec.rs: dump_mmap"]}
{"id": "C145", "title": "Additions made again", "statement": "Calls of add_node and add_edge made on a graph and then made once more, in the same order: the second time changes no answer, no label table and no max_seen_id; only edge_count grows, by one for every add_edge. So reading the same CSV files into a graph twice leaves the graph they give when read once, but for edge_count, which grows by the number of edge records.", "quantifier": "every history, every list of additions, every CSV file and settings", "why_tests_cant": "a test that adds twice adds one edge twice, not a list with relabelled nodes in between; edge_count is not compared", "anchors": ["src/graph_impl/graph_map/graph.rs: add_node, add_edge", "src/io/csv/reader.rs: read"]}
{"id": "C146", "title": "Which labels survive CSV files", "statement": "Written to CSV files and read back, a graph comes back without the labels whose text is empty and otherwise as it was. With a header line a label read always comes from a field that is not empty; so a graph read from any CSV files with header lines can be written and read again unchanged. From files without header lines that is false: there an empty last field is the empty label.", "quantifier": "every graph, all fields whose non-empty texts parse back; every pair of files, id texts being decimal and labels texts", "why_tests_cant": "tests write graphs whose labels are short words, and read files they wrote", "anchors": ["src/io/csv/writer.rs: write", "src/io/csv/reader.rs: read, node_iter, edge_iter", "src/io/csv/record.rs: NodeRecord, EdgeRecord"]}
{"id": "C147", "title": "What restarts of a search cost, and the largest id", "statement": "A search holds one bit for every id up to the largest ever seen. A call of next that finds a waiting node asks has_node nothing; one that restarts at x asks about x and the ids below x that are no nodes, again each time; the last call asks about every id that is no node. A search restarts at the nodes no node visited before them has an edge to, so it asks at most (nodes \u2212 1)\u00b7(1 + gaps) + gaps times, exactly that often on graphs without edges whose gaps lie below their nodes, and less often than it yields if there are no gaps. Once the largest usize has been a node no search can be made: with overflow checks the number of bits overflows, without them the first set is out of bounds; for all other graphs both builds make the search of the model.", "quantifier": "every graph, start node, moment and order of the search", "why_tests_cant": "tests search small graphs with dense ids and check the order only; no test has an id near usize::MAX", "anchors": ["src/algorithm/bfs.rs: new, with_capacity, next, next_unvisited_node", "src/algorithm/dfs.rs: new, with_capacity, next, next_unvisited_node"]}
{"id": "C148", "title": "How single edges change the components", "statement": "process_new_edge leaves the count of components if it is given two linked nodes or a node seen and a new one, lowers it by one if it is given two nodes seen but not linked, and raises it by one if both are new. So the nodes seen are as many as the count and the edges that joined something together; they are at most as many as the count and all edges, and exactly as many if and only if no edge has its ends linked by the other edges (no cycles). On a graph, add_edge changes the count found by ConnComp in just this way and remove_edge in the reverse way, two nodes being connected afterwards as the edge says; add_node and the label updates change nothing.", "quantifier": "every sequence of calls on a ConnComp, every reachable graph, every call", "why_tests_cant": "the tests process one list of edges each and never compare with the graph before a call", "anchors": ["src/algorithm/conn_comp.rs: process_new_edge, run_detection, get_count", "src/graph_impl/graph_map/graph.rs: add_edge, remove_edge, add_node, update_node_label, update_edge_label"]}
{"id": "C149", "title": "Graphs with shared label tables agree on label ids", "statement": "A graph p is made by with_label_map from copies of the label tables of g, and both graphs are changed afterwards in any way. A label that was in the tables when they were copied has the same id at every node and edge of both graphs that carries it, namely its place in the tables, in whichever order the labels are used again; and a label id below the size of the tables copied names the same label in both. For labels that come in later neither holds.", "quantifier": "every reachable graph g and all later histories of both graphs, also ones that overrun the label-id type", "why_tests_cant": "the documentation's example has two nodes and compares right after copying; no test uses with_label_map", "anchors": ["src/graph_impl/graph_map/graph.rs: with_label_map, add_node, add_edge", "src/map/set_map.rs: add_item, find_index"]}
{"id": "C150", "title": "Lengths of CSV files", "statement": "write_to_csv leaves a node file and an edge file whose lengths are known beforehand: nothing for a graph without nodes (edges), otherwise a line of column names and one line per node (edge) with one byte after each field, where a field takes its own bytes, or two more and its quotes once again if it holds a separator, a quote or a line end. An id takes its decimal digits. The lengths do not depend on the order of nodes and edges. A disk with room for the two files and these bytes is enough for both calls of C88, C105, C106, C111 and C146.", "quantifier": "all graphs, separators, texts of ids and labels; all prior states of the disk", "why_tests_cant": "tests write a few small graphs and read them back", "anchors": ["src/io/csv/writer.rs: write", "src/io/csv/mod.rs: write_to_csv"]}
{"id": "C151", "title": "Searches and components of generated graphs", "statement": "On a complete graph a breadth-first search visits the start and then the other nodes by ascending id, a depth-first search the start and then the others by descending id; there is one component if there are two nodes or more. On a graph without edges both searches visit the others by ascending id, and there is no component. So complete_graph(n) searched from s gives s, 0, 1, \u2026 and s, n\u22121, n\u22122, \u2026, empty_graph(n) gives s, 0, 1, \u2026.", "quantifier": "all complete and all edgeless graphs behind the traits, all generated sizes, labels, random streams and start nodes", "why_tests_cant": "the tests search graphs of three or four nodes", "anchors": ["src/algorithm/bfs.rs: Bfs", "src/algorithm/dfs.rs: Dfs", "src/algorithm/conn_comp.rs: ConnComp", "src/graph_gen/general.rs: empty_graph, complete_graph"]}
{"id": "C152", "title": "Searches and components of paths", "statement": "Adding the edges 0\u20131, 1\u20132, \u2026 up to N gives a path of N edges. On the directed path both searches from s visit s, s+1, \u2026, N and then 0, 1, \u2026, s\u22121. On the undirected path the depth-first search from s visits s, s+1, \u2026, N and then s\u22121, \u2026, 0, and the breadth-first search visits the nodes by distance from s, the lower of two equally far ones first; from 0 both count upwards, as the examples in the documentation show for three edges. A path is one component.", "quantifier": "all lengths that fit the id type, all labels, all start nodes", "why_tests_cant": "the documentation and the tests show paths of two and three edges searched from one end", "anchors": ["src/algorithm/bfs.rs: Bfs", "src/algorithm/dfs.rs: Dfs", "src/algorithm/conn_comp.rs: ConnComp", "src/graph_impl/graph_map/graph.rs: add_edge"]}
{"id": "C153", "title": "remove_node only affects its own component", "statement": "After remove_node two nodes are connected exactly if a path between them avoids the removed node; nodes that were not connected with it are connected as before. If the node had an edge, its component is replaced in the count by the pieces that are left of it and have edges, at most as many as it had neighbours; otherwise the count stays. Removing a node with a single neighbour that has another one leaves the count, and everything else connected as it was.", "quantifier": "every reachable graph, every node that remove_node accepts (C59)", "why_tests_cant": "tests remove nodes but never look at components afterwards", "anchors": ["src/graph_impl/graph_map/graph.rs: remove_node", "src/algorithm/conn_comp.rs: ConnComp"]}
{"id": "C154", "title": "Which graphs calls can make", "statement": "A GraphMap can be made by public calls exactly if its collections are proper (no id and no label twice, maps and sets sorted) and its records fit together: every record under its own id, edges end at nodes, in-neighbours are the sources of the edges (directed) or empty (undirected), undirected edges there both ways, no more edges than counted, no node above the largest id seen. From new without reorder_id_with they are the same graphs, except that a graph that has seen no node has counted no edge. Whatever file import reads successfully, the result has proper collections, so it is a graph calls can make exactly if its records fit together.", "quantifier": "all graph values, all histories, all files", "why_tests_cant": "tests make single graphs; no test can show that a graph cannot be made, or that every graph in order can", "anchors": ["src/graph_impl/graph_map/graph.rs: TypedGraphMap", "src/graph_impl/graph_map/node.rs: NodeMap", "src/io/serde.rs: Deserialize::import"]}
{"id": "C155", "title": "Graphs read from any file", "statement": "Whatever file a graph was read from, and whatever calls were made on it since with panics caught: its collections are proper; a call panics exactly if it is remove_node of a node with a neighbour that is itself or missing or with more neighbours than edges counted, remove_edge of an edge with missing target or with counter 0, add_edge or update_edge_label (of a present edge) with the 64-bit counter full, or a write through a handle to something absent. A search can be made exactly if a maximal id is recorded and the start node exists and is not above it; it then panics exactly if an edge between ids up to the maximum ends at no node, and otherwise visits the nodes up to the maximum once each, in the order of C66; nothing above the maximum is visited or noticed.", "quantifier": "all files, all graph values, all calls, all start nodes", "why_tests_cant": "import checks nothing, and tests only read files the library wrote", "anchors": ["src/io/serde.rs: Deserialize::import", "src/graph_impl/graph_map/graph.rs: add_edge, remove_node, remove_edge, update_edge_label, max_seen_id", "src/algorithm/bfs.rs: Bfs", "src/algorithm/dfs.rs: Dfs"]}
{"id": "C156", "title": "Queries of frozen graphs read from any file", "statement": "Whatever the arrays of a frozen or mapped graph hold: neighbors(n) gives the row exactly if its two offsets are there, in order and within the edges, and otherwise panics in a way that is told; degree looks at the two offsets alone; has_edge never claims an entry the row does not hold and is right for sorted rows; the label id found for an edge stands at the place of one of its entries; a node's label panics exactly if the label array is too short. With a row for every id of the id type the enumeration of the edges never ends, whatever the arrays hold. With fewer rows, directed or with sorted rows, it ends whatever the offsets; it panics exactly if a row has its offsets in the wrong order or is nonempty and leaves the array, and otherwise lists the rows in order. With an undirected row out of order it may never end.", "quantifier": "all offset, edge and label arrays, all ids", "why_tests_cant": "import and mmap check nothing about the arrays, and tests only read files the library wrote", "anchors": ["src/graph_impl/static_graph/edge_vec.rs: EdgeVecTrait", "src/graph_impl/static_graph/static_edge_iter.rs: StaticEdgeIndexIter::next", "src/graph_impl/static_graph/mmap/graph_mmap.rs: has_edge"]}
{"id": "C157", "title": "Searches of anything behind the traits", "statement": "Whatever implements GraphTrait: a breadth-first or depth-first search begun at a node not above max_seen_id always stops; it ends exactly if neighbors answers for all ids up to that maximum that are nodes or are listed by such ids, however far, and then yields these ids once each; otherwise it panics as neighbors does for one of them. For a frozen or mapped graph, whatever its arrays hold, it yields all ids up to the last node once each, or panics exactly if one of their rows is not there, in the wrong order or beyond the array; with sorted rows the order is that of C66. A start beyond the last node or an empty graph is refused.", "quantifier": "all graphs behind the trait, all arrays, all start nodes", "why_tests_cant": "rows with repetitions, out of order or beyond the arrays never occur in tests", "anchors": ["src/algorithm/bfs.rs: Bfs::new, next", "src/algorithm/dfs.rs: Dfs::new, next", "src/graph_impl/static_graph/graph.rs: neighbors, max_seen_id, has_node", "src/graph_impl/static_graph/mmap/graph_mmap.rs: neighbors, max_seen_id"]}
{"id": "C158", "title": "Components of anything behind the traits", "statement": "Whatever implements GeneralGraph: the component detection never panics, and connectivity, the number of components and their nodes are those of the pairs that edges() lists and of nothing else; two graphs of whatever kind whose edges join the same nodes have the same components. A frozen graph with any arrays, directed or with sorted rows, can be enumerated exactly if every row has its offsets in order and, if nonempty, lies within the edges; edges() then lists the entries of the rows - of an undirected graph those not below their row - cut off after as many as there are edge labels, if there are any. So edges stored in one direction only, or without a label of their own, may join nothing.", "quantifier": "all graphs behind the trait, all arrays", "why_tests_cant": "frozen graphs with entries in one direction only or too few labels never occur in tests", "anchors": ["src/algorithm/conn_comp.rs: ConnComp::new", "src/graph_impl/static_graph/graph.rs: edges, edge_indices"]}
{"id": "C159", "title": "Union, difference and clones of anything behind the traits", "statement": "Whatever the two graphs are: graph_union panics exactly as the first label that is asked for and not given, nodes before edges; otherwise it is the graph made by adding the listed nodes of both and then the listed pairs of both with the labels they give: it has a node for every listed node and every end of a listed pair, an edge for every listed pair (in both directions if the first is undirected), and counts all listed pairs. A boxed clone is the case of an empty second graph. graph_minus panics as the clone, or exactly if a node listed by the second has a self loop listed by the first; otherwise it is the clone without the nodes and pairs listed by the second, labels kept, the counter lower by the edges that went. A frozen graph with any arrays that can be enumerated can be cloned exactly if its node labels, if any, reach to its last node.", "quantifier": "all graphs behind the traits, all arrays", "why_tests_cant": "listings with repetitions, ends that are no nodes and label arrays of any length never occur in tests", "anchors": ["src/algorithm/graph_union.rs: graph_union", "src/algorithm/graph_minus.rs: graph_minus", "src/generic/graph.rs: Clone for Box<GeneralGraph>", "src/graph_impl/static_graph/graph.rs: get_node, get_edge, edge_indices"]}
{"id": "C160", "title": "Which frozen graphs there are", "statement": "The frozen graphs that into_static gives for graphs made by public calls are exactly those with at least one row and none for the largest id, whose rows are sorted, packed without gaps and list rows only; with in-rows that hold exactly the sources if directed, and otherwise none and entries both ways; with labels stored exactly if the table has one, one for every row or entry; without a label twice in a table; and with counts that cover the ids something is known of (the last, those with an edge or a label) and the listed edges, the count of nodes not above the number of rows.", "quantifier": "all frozen graphs, all graphs made by calls", "why_tests_cant": "tests freeze a few graphs and never ask what all of them have in common", "anchors": ["src/graph_impl/graph_map/graph.rs: into_static", "src/graph_impl/static_graph/graph.rs: TypedStaticGraph, from_raw", "src/graph_impl/static_graph/edge_vec.rs: EdgeVec, from_raw"]}
{"id": "C161", "title": "What freezing forgets", "statement": "Two graphs made by public calls have the same frozen form exactly if they agree in directedness, both counts, both label tables, the largest node id and the edges, and, where a table has labels, in the label ids of all ids and edges, the largest label id and a missing node counting as no label. So nothing is lost of graphs whose ids are 0..n-1 with the largest label id free: those with the same frozen form answer all calls alike. With gaps in the ids different graphs have the same frozen form.", "quantifier": "all pairs of graphs made by calls that can be frozen", "why_tests_cant": "tests compare one graph with its frozen form, never two graphs with the same one", "anchors": ["src/graph_impl/graph_map/graph.rs: into_static", "src/graph_impl/static_graph/graph.rs: TypedStaticGraph"]}
{"id": "C162", "title": "edges() of a labelled frozen graph stops with its labels", "statement": "edges() of a labelled frozen or mapped graph asks for one pair and then one label at a time and stops at the first that is missing. Where the enumeration of the pairs ends, the result is the pairs zipped with the labels, whatever the arrays. With a row for every id, where edge_indices() never ends, edges() of a labelled graph with a pair to list does end, with as many entries as labels, the pairs coming round and round: the right list if the graph is directed; all edges and then once more all but as many as there are self loops if it is undirected and stored both ways. Without a pair to list it never comes back. Panics of edge_indices() behind the last label are not met.", "quantifier": "all rows of sorted neighbours with labels, any number of them up to one for every id; the first part for all arrays", "why_tests_cant": "tests use graphs far below the id range, and labels that fit", "anchors": ["src/graph_impl/static_graph/graph.rs: edges", "src/graph_impl/static_graph/mmap/graph_mmap.rs: edges", "src/graph_impl/static_graph/static_edge_iter.rs: next"]}
{"id": "C163", "title": "Which CSV fields are ids", "statement": "A field of an id column is read as an id exactly if it is a decimal number not above the largest id: at least one digit, zeros in front allowed, at most one + before them, nothing else. With a later version of the csv crate (Cargo.toml asks for any 1.x), which knows hexadecimal numbers, also exactly if it is 0x followed by such a number in hexadecimal digits of either case. Files without a field that begins with 0x are read alike by both versions, both write the same, and what is written is read back by either.", "quantifier": "all fields, all files, all graphs and id types", "why_tests_cant": "tests read back small decimal numbers only", "anchors": ["src/io/csv/record.rs: visit_map, visit_seq", "src/io/csv/reader.rs: read, node_iter, edge_iter", "Cargo.toml"]}
{"id": "C164", "title": "Which bytes are text", "statement": "The check that Rust makes before bytes become a String accepts a sequence of bytes exactly if it is the UTF-8 encoding of some sequence of Unicode scalar values; that sequence is then unique. Texts put together are text, and every String passes.", "quantifier": "all sequences of bytes", "why_tests_cant": "tests use ASCII labels only", "anchors": ["src/io/csv/record.rs: NodeRecord, EdgeRecord", "src/io/serde.rs: Deserializer::import"]}
{"id": "C165", "title": "CSV files that are not text", "statement": "Reading a CSV file into Strings leaves out exactly the rows that have a field which is not UTF-8; a header line that is not UTF-8 is passed over and the columns are then taken by position. If the whole file is UTF-8 and the separator is an ASCII character nothing is left out, and the graph is the one got from the bytes; a separator outside ASCII can cut a character in two. Graphs with String labels written to CSV files are read back.", "quantifier": "all files, settings and graphs", "why_tests_cant": "tests read ASCII files only", "anchors": ["src/io/csv/reader.rs: read, node_iter, edge_iter", "src/io/csv/record.rs: NodeRecord, EdgeRecord", "src/io/csv/writer.rs: write"]}
{"id": "C166", "title": "Strings in exported files", "statement": "The file of a graph with String labels holds the same bytes as that of the graph with the labels' bytes. Importing gives a graph exactly if importing with bytes as labels does and every label in both tables is UTF-8, and it is then the same graph; otherwise importing fails and no graph is made. This holds for graph maps, frozen graphs and the auxiliary file of mapped graphs.", "quantifier": "all files, graphs, id types and directions", "why_tests_cant": "tests import what they have exported just before", "anchors": ["src/io/serde.rs: Deserializer::import", "src/io/serde.rs: Serializer::export", "src/map/set_map.rs: SetMap"]}
{"id": "C167", "title": "Label values matter only through their equality", "statement": "If the values of the node labels and of the edge labels are replaced by others, different ones by different ones, in a graph and in the calls made on it, every call returns the same, panics alike and leaves the same graph with the replaced values: same nodes, edges, label ids, counts. The same holds for programs of calls, for the comparison of graphs, for union, difference and cloning, for renumbering and for freezing. Where two values become one it fails.", "quantifier": "all graphs, label types, injective replacements, calls and programs", "why_tests_cant": "tests use one label type at a time", "anchors": ["src/graph_impl/graph_map/graph.rs: TypedGraphMap", "src/map/set_map.rs: add_item", "src/algorithm/graph_union.rs: graph_union", "src/algorithm/graph_minus.rs: graph_minus", "src/generic/graph.rs: equal"]}
{"id": "C168", "title": "Node ids matter only through their order", "statement": "If the node ids of a graph are replaced by others, perhaps of a wider or narrower id type, in such a way that their order stays, then every query answers the same with the other ids, every call returns the same and leaves the same graph with the other ids, or panics alike; the same holds for programs of calls with the hash map reordered in between, for the label counters, the comparison of graphs, union, difference and cloning. A graph calls can make becomes a graph calls can make, and breadth and depth first search visit the nodes in the same order. A program run with u8 ids and one run with u32 ids therefore do the same. With ids replaced out of order it fails.", "quantifier": "all graphs, id types, order preserving replacements, calls and programs", "why_tests_cant": "tests use one or two id types and fixed ids", "anchors": ["src/generic/dtype.rs: IdType", "src/graph_impl/graph_map/graph.rs: TypedGraphMap", "src/graph_impl/graph_map/node.rs: NodeMap", "src/algorithm/bfs.rs: Bfs", "src/algorithm/dfs.rs: Dfs"]}
{"id": "C169", "title": "The width of the label-id type does not matter while there are few labels", "statement": "If a program is given at most as many different node labels, and at most as many different edge labels, as the narrower of two label-id types can number, counting those in the tables before, then it does the same with both types: every call returns the same, panics alike and leaves graphs that differ in the type of the label ids only; these answer every query alike, compare equal and hash alike. With one label more it fails.", "quantifier": "all graphs, label-id types, calls and programs", "why_tests_cant": "tests use one label-id type at a time and few labels", "anchors": ["src/generic/dtype.rs: IdType", "src/graph_impl/graph_map/graph.rs: add_node", "src/graph_impl/graph_map/graph.rs: add_edge", "src/map/set_map.rs: add_item"]}
{"id": "C170", "title": "LDBC files that are not text", "statement": "When an LDBC directory is loaded, a row below the header that has a field which is not UTF-8 stops the loading with an error, even if nothing is taken from that column; headers and files that no scheme entry matches are not looked at. If every file is UTF-8 and the delimiter an ASCII character, nothing is refused. Every node and edge label of a graph that was loaded is UTF-8, so it is a graph with String labels.", "quantifier": "for all schemes whose label names are text, directories, id and label-id widths", "why_tests_cant": "it speaks of every byte sequence a file may hold", "anchors": ["src/io/ldbc/scheme.rs: from_path", "src/io/ldbc/node.rs: add_node", "src/io/ldbc/relation.rs: add_edge"]}
{"id": "C171", "title": "ConnSubgraph of anything behind the traits, and the order of its parts", "statement": "Whatever implements the graph trait, consistent or not: ConnSubgraph::new panics with the first panic among its calls - a listed node that no listed edge has, or a label that cannot be had - and otherwise gives one graph for each component of the pairs edges() lists, made by the calls for that component, in the order in which node_indices() and then edges() first mention the components. For a consistent graph this is the order in which node_indices() first lists a node of each; for a frozen graph the order of the smallest ids.", "quantifier": "for all graphs behind the trait", "why_tests_cant": "it speaks of every implementation of the trait", "anchors": ["src/algorithm/conn_subgraphs.rs: new, run_subgraph_enumeration, process_nodes, process_edges, root_to_subgraph"]}
{"id": "C172", "title": "Parts put together again, and taken apart again", "statement": "If no node of a graph is isolated, graph_union of the graphs ConnSubgraph gives, in any order and beginning with an empty graph, is the graph again: the same nodes, edges and labels, and edge_count is the number of its edges, so equal holds exactly if edge_count of the graph was right. ConnSubgraph of one of the parts gives one graph, equal to the part.", "quantifier": "for all graphs behind the trait that are consistent, all orders of the parts", "why_tests_cant": "it speaks of all graphs and all orders of all their parts", "anchors": ["src/algorithm/conn_subgraphs.rs: new, into_result", "src/algorithm/graph_union.rs: graph_union"]}
{"id": "C173", "title": "The order of the files of an LDBC directory", "statement": "Whether a directory is loaded does not depend on the order in which its files are listed, nor does edge_count. The two graphs differ by a renaming of ids that keeps the keys: nodes, edges and labels of edges are the same, although a later record overwrites an earlier one, and so are the labels of nodes if no key is given two. The ids do depend on the order, and so does the label of a key that is given two.", "quantifier": "for all schemes, all directories, all orders of their files", "why_tests_cant": "read_dir gives no order, and a test sees the one order of its machine", "anchors": ["src/io/ldbc/scheme.rs: from_path", "src/io/ldbc/node.rs: add_node", "src/io/ldbc/relation.rs: add_edge"]}
{"id": "C174", "title": "The widths of the id types do not matter to frozen graphs", "statement": "A graph whose node ids and label ids are taken with wider types freezes to the same frozen graph with the wider types, the largest label id (which stands for no label) becoming the largest one of the other type, provided it freezes with the narrow types and no node or edge has the largest label id. A frozen graph with at most as many rows as the narrow type's largest id gives the same answers to all queries, lists the same nodes and edges in the same order and panics alike with the wider types; all that into_static gives have so few. A node with the largest id, or a label with the largest label id, makes a difference.", "quantifier": "for all pairs of widths, all graphs", "why_tests_cant": "it compares instances of the code for different types, on all graphs", "anchors": ["src/graph_impl/graph_map/graph.rs: into_static", "src/graph_impl/static_graph/edge_vec.rs: neighbors, find_edge_index", "src/graph_impl/static_graph/static_edge_iter.rs: next", "src/graph_impl/static_graph/graph.rs: edges, nodes"]}
{"id": "C175", "title": "Mapped files read with other id types", "statement": "The files of a dumped graph carry no mark of the width of their ids. Loaded with ids and label ids of other widths they are opened without complaint: the offsets and counts are right and the arrays of ids are the numbers found by cutting the same bytes otherwise. Where one width divides the other, as those of the integer types do, a non-empty array is read right just if the widths are equal; each id falls into its pieces, the lowest first, or so many neighbouring ids make one. With narrower ids every node that had neighbours is given as many, wrong ones, without a panic; with wider ids some node that has neighbours panics when asked for them, for every graph with edges that into_static gives.", "quantifier": "for all graphs that can be mapped, all widths, all disks with room", "why_tests_cant": "the load succeeds; the wrong answers show only for particular pairs of instances of the code", "anchors": ["src/io/mmap.rs: new, with_mmap", "src/graph_impl/static_graph/mmap/edge_vec_mmap.rs: new", "src/graph_impl/static_graph/mmap/graph_mmap.rs: new", "src/graph_impl/static_graph/edge_vec.rs: dump_mmap"]}
{"id": "C176", "title": "Comparing, hashing and counting anything behind the traits", "statement": "For any two values behind the graph traits, whatever they answer: equal gives true just if the directions and the counts are the same and every node and pair the first one lists is in the second one with the same label; it gives false if those numbers differ or if the first listed item that is not the same is missing or has another label, and panics if asking about that item panics, with that panic. == of typed graphs is the same without the numbers. A graph is equal to itself just if it has what it lists and its labels can be asked for. The label counters panic with the first panic of the label queries, otherwise count how often each label is found. Two graphs are fed to the hasher alike just if they list the same nodes and pairs equally often and give the same labels. A frozen graph from any file with its rows in order is equal to itself just if its node labels reach to the last node and no listed edge leads to a node without a row.", "quantifier": "for all values behind the traits", "why_tests_cant": "it holds for implementations of the traits outside the library and for frozen graphs read from damaged files", "anchors": ["src/generic/graph.rs: equal, get_node_label_counter, get_edge_label_counter", "src/graph_impl/graph_map/graph.rs: eq, hash", "src/graph_impl/static_graph/graph.rs: eq, hash"]}
{"id": "C177", "title": "CSV files of anything behind the traits", "statement": "For any value behind the graph traits, whatever it answers: writing it as CSV panics just if cloning it does, with the same panic, that of the first label that can not be asked for, nodes before edges. Otherwise reading the files into any graph adds the nodes and pairs that were listed, in their order, with the labels given, those with empty texts left out; read into an empty graph, if there are no such labels, they give the very graph that clone gives.", "quantifier": "for all values behind the traits, all separators but quotes and line ends, all fields that read back what they show", "why_tests_cant": "it compares two algorithms on all implementations of the traits, and on frozen graphs from damaged files", "anchors": ["src/io/csv/writer.rs: write", "src/io/csv/reader.rs: read", "src/generic/graph.rs: clone"]}
{"id": "C178", "title": "Loops over the edges of frozen graphs from any file", "statement": "Iterating over the edges is lazy: a loop over the edges of any offset and neighbour arrays takes its turns over the edges of the rows before the first one whose bounds are out of order or beyond the edges; if it has not left by then it panics there (underflow or index out of bounds, by which of the two it is), or ends if there is no such row. With a node for every number of the id type no such loop ever ends of itself. Hence equal on a graph from a damaged file answers false if the rows before the damage already differ and panics otherwise, never answering true; and a graph using the whole id range is never found equal to anything, not even itself. Where the whole enumeration succeeds this is the comparison of the lists.", "quantifier": "for all offset and neighbour arrays (sorted rows if undirected), all loop bodies, all graphs compared with, all running times", "why_tests_cant": "damaged arrays and full id ranges do not arise from the API the tests use, and the endless case can not be run", "anchors": ["src/graph_impl/static_graph/static_edge_iter.rs: next", "src/generic/graph.rs: equal"]}
{"id": "C179", "title": "Enumerating undirected frozen graphs whose rows are not sorted", "statement": "The edge iterator of an undirected frozen graph looks for its own node in a row by binary search, which rows taken from a file or from the constructor need not be sorted for. For every row: all entries are listed if none is less than the node; else those before the first such entry, then those from the place where the search ends on, provided no entry less than the node comes after that place. If one does, the iterator jumps back to that place for ever, and no loop over the edges ends unless left from within, however long it runs. So an enumeration of any arrays ends exactly if all rows are in bounds and none has such an entry, and lists exactly this. Sorted rows are a case, with every edge listed once from its smaller end.", "quantifier": "for all offset and neighbour arrays with fewer rows than ids, directed or not, all loop bodies, all running times", "why_tests_cant": "the outcome depends on where a binary search of an unsorted row happens to end; endless runs can not be tested", "anchors": ["src/graph_impl/static_graph/static_edge_iter.rs: next", "src/graph_impl/static_graph/graph.rs: edge_indices"]}
{"id": "C180", "title": "How many entries a lookup in a frozen graph compares", "statement": "A binary search of a row of n entries compares exactly ceil(log2 n) + 1 of them (none if n is 0), whatever the entries, sorted or not, and whatever is looked for; all of them lie within the row. has_edge of a frozen graph compares exactly that many entries of the row of its first node, and none if one of the two nodes is outside the adjacency; has_edge of a mapped graph compares that many of the row of its first node. Rows without repeats are no longer than the number of ids, so a lookup compares at most 9, 17, 33 or 65 entries for ids of one, two, four or eight bytes; doubling a row costs one comparison.", "quantifier": "for all adjacencies, all rows, all pairs of nodes", "why_tests_cant": "tests measure time, not comparisons, and only of the rows they build", "anchors": ["src/graph_impl/static_graph/edge_vec.rs: find_edge_index", "src/graph_impl/static_graph/graph.rs: has_edge", "src/graph_impl/static_graph/mmap/graph_mmap.rs: has_edge"]}
{"id": "C181", "title": "Components found so far when a damaged graph stops the detection", "statement": "run_detection over a frozen or mapped graph of which nothing is known writes into a ConnComp that outlives it. The run panics exactly at the first row that can not be passed, unless edge labels run out before. Whether or not the panic is caught, the ConnComp then answers exactly as after the edges it had before and the pairs listed before that row, and no earlier edge is lost; process_new_edge itself never panics. Running it again any number of times changes no answer. If a row never settles, the run never ends without labels, and with labels ends without a panic after as many pairs as there are labels.", "quantifier": "for all offset, neighbour and label arrays with fewer rows than ids, all histories of the ConnComp before", "why_tests_cant": "needs a damaged file, a caught panic and a look at the state left behind", "anchors": ["src/algorithm/conn_comp.rs: run_detection", "src/graph_impl/static_graph/graph.rs: edges", "src/graph_impl/static_graph/mmap/graph_mmap.rs: edges", "src/graph_impl/static_graph/static_edge_iter.rs: next"]}
{"id": "C182", "title": "Reorderings made one after the other, and taken back", "statement": "Reordering a graph with reorder_id_with and then reordering the result is the same as one reordering with the maps put together, as long as the second id map holds only ids that are places in the first. A reordering that drops no label can be taken back: there are maps, moving each node's new id back to the place of the old, that lead to a graph with the same nodes, labels, edges, counts and label tables as the one before; only the largest id seen may differ, and is then the largest id in use. If a label was dropped no further reordering leads back. A map that has every node at its own place changes nothing but the largest id seen.", "quantifier": "for all graphs that calls lead to, all id maps without repeats and all label maps", "why_tests_cant": "needs two calls with maps chosen from the graph, and a comparison of the whole state", "anchors": ["src/graph_impl/graph_map/graph.rs: reorder_id_with", "src/graph_impl/graph_map/graph.rs: reorder_label_map"]}
{"id": "C183", "title": "Mapped files moved to a machine with another usize", "statement": "The offsets of a dumped graph are written as usize, so that the files depend on the machine; nothing in them tells. A graph dumped where usize has eight bytes is opened where it has another width exactly if its counts fit; counts, ids, labels and tables are right, and the offsets are the same bytes cut otherwise. Where usize is half as wide, a node of even number has no neighbours if there are none in the rows before half its number and panics otherwise, and a node of odd number has the neighbours of all nodes up to half its number; so the first node that has neighbours is given none. Where it is twice as wide, no node is given a neighbour: nodes panic once two rows past twice their number there has been an edge, and the rows of the upper half are missing.", "quantifier": "for all graphs that can be mapped, all widths of usize and of ids, all disks with room; queries for all arrays into_static gives", "why_tests_cant": "needs two machines; opening succeeds and the counts look right", "anchors": ["src/graph_impl/static_graph/mmap/edge_vec_mmap.rs: new", "src/graph_impl/static_graph/edge_vec.rs: dump_mmap", "src/graph_impl/static_graph/mmap/graph_mmap.rs: new", "src/io/mmap.rs: new"]}
{"id": "C184", "title": "What reordering fixes, and reordering again", "statement": "reorder_id numbers nodes and labels in the order of a hash map, so that two runs on one graph may differ. What does not differ: after reordering by degree the node of number i has the i-th smallest degree plus in-degree of all nodes; after reordering by label frequency the label of number i has the i-th smallest number of nodes (or edges) of all labels in use, and the table has just those. Hence reordering a reordered graph leaves every number with its degree and every label id with its count, whatever order the hash map is in by then, and drops no label. If it gives the nodes in ascending order nothing changes at all; otherwise nodes of equal degree may change places.", "quantifier": "for all reachable graphs, all flags, all orders of hash maps and of ties in the counters", "why_tests_cant": "ties in the order of a hash map depend on the run", "anchors": ["src/graph_impl/graph_map/graph.rs: reorder_id, reorder_id_with"]}
{"id": "C185", "title": "Chances of edges and mean degrees of random graphs", "statement": "random_gnm_graph(n,c), with N possible edges, has given edges S with chance choose(N-|S|, c-|S|)/choose(N, c), so two nodes are joined with chance c/N, and every node has a mean degree of 2c/n (c/n going out of it if directed). random_gnp_graph has given edges S with the chance of a draw below p to the power of |S|; the mean degree is n-1 times that chance and the mean edge_count N times. No node or pair is preferred, and the draws for labels do not matter.", "quantifier": "every number of nodes the id type can hold, both graph types, all label lists, every set of edges, node and pair; for gnp every p in [0, 1] and every finite list of equally likely draws", "why_tests_cant": "a bias shows only in averages over very many runs", "anchors": ["src/graph_gen/random.rs: random_gnp_graph, random_gnm_graph", "src/graph_gen/helper.rs: complete_edge_pairs"]}
{"id": "C186", "title": "Graphs with their edges turned around", "statement": "If source and target are exchanged in every call of a history, it panics exactly when and how the original does, every call returns the same (a removed edge turned around), and the graph has the same nodes, node labels, counts, max_seen_id and label tables, with edge (t, s) in place of (s, t). On a directed graph neighbors and in_neighbors and the degrees are exchanged, and into_static writes the offset and edge arrays of the one graph as the in-arrays of the other. On an undirected graph neighbours and listed edges stay as they are, unless label ids were set in a loop over edges_mut. Components are the same.", "quantifier": "every history of a directed graph with any calls, every history of an undirected graph without loops over edges_mut, any order of the hash map at any time on both sides", "why_tests_cant": "an error in the bookkeeping of only one direction shows on graphs where both ends of an edge have many neighbours and edges go away again", "anchors": ["src/graph_impl/graph_map/graph.rs: add_edge, remove_edge, remove_node, edges_mut, into_static", "src/graph_impl/graph_map/node.rs: add_edge, add_in_edge, remove_in_edge", "src/algorithm/conn_comp.rs: ConnComp::new"]}
{"id": "C187", "title": "Mapped files on machines with another byte order", "statement": "A graph dumped and opened on machines that keep the most significant byte first behaves as on those that keep it last. Files moved between the two kinds are opened or refused alike, with the same counts and label tables, and every number of the arrays has its bytes turned around. With fewer than 2^32 entries neighbors and has_edge then never answer wrongly: nodes before the first edge have no neighbours, from the first node with a neighbour on they panic, and listing the edges of a directed graph panics unless there are none. Unlabelled nodes stay unlabelled; with label ids of at least two bytes and at most 256 labels every label but the one of id 0 is lost, silently.", "quantifier": "every disk and prefix; for answers every frozen graph with rising offsets and fewer than 2^32 entries; all widths of ids and label ids", "why_tests_cant": "needs machines of two kinds", "anchors": ["src/io/mmap.rs: typed_as_byte_slice, TypedMemoryMap", "src/graph_impl/static_graph/mmap/edge_vec_mmap.rs: EdgeVecMmap::new", "src/graph_impl/static_graph/mmap/graph_mmap.rs: StaticGraphMmap::new", "src/graph_impl/static_graph/graph.rs: dump_mmap"]}
{"id": "C188", "title": "CSV files left when a damaged graph stops the writing", "statement": "Writing a frozen or mapped graph whose rows or labels are damaged to CSV files: a node whose label is missing panics, leaving the nodes before it in the node file and the edge file as it was, be it of an earlier write. With all node labels there, on any disk, the two files are those of a write of the graph cut before the first row that can not be passed, and the call panics exactly if there is such a row and the disk did not fail first; labels of listed pairs never panic. What is left is read back without complaint as the nodes and the edges before the damage. Undamaged graphs are written as the plain model of the writing has it.", "quantifier": "every answer to the calls; all arrays of offsets and edges where the iterator gets to some row; every disk, full or not", "why_tests_cant": "the panic comes in the middle of the file; nobody looks at what the destructors of the writers leave", "anchors": ["src/io/csv/writer.rs: CSVWriter::write", "src/io/csv/mod.rs: write_to_csv", "src/graph_impl/static_graph/edge_vec.rs: EdgeIter"]}
{"id": "C189", "title": "Names of LDBC files say what is read from them", "statement": "In a directory as LDBC's generator makes it, each row of a file source_relation_target_*.csv is one edge from the source in the first column to the target in the second, labelled with the relation, and there are no other edges; organisations are labelled from the second column of their file, places from the fourth of theirs. The files of persons, posts, comments, forums, tags, classes of tags, mails and languages change nothing: those nodes are in the graph only through their relations.", "quantifier": "every directory whose file names are the generator's, any contents, any notion of digit in which letters are none", "why_tests_cant": "25 entries of a table, each with its own indices and expression, not all anchored", "anchors": ["src/io/ldbc/scheme.rs: Scheme::init, from_path", "src/io/ldbc/relation.rs: Relation::new, is_match", "src/io/ldbc/node.rs: Node::new, is_match"]}
{"id": "C190", "title": "Iterators after their end, and after a panic", "statement": "Called again after its end, the iterator over the edges of a frozen graph answers None every time, also when its rows are torn; called again after a panic that was caught, it panics the same way every time, so that no edge behind the damage is ever reached. A search that has answered None answers None every time and its state no longer changes.", "quantifier": "every pair of arrays, sound or not, directed or not, any number of calls; every graph and every state of a search", "why_tests_cant": "tests stop at the first None, and none catches a panic and goes on", "anchors": ["src/graph_impl/static_graph/static_edge_iter.rs: next", "src/algorithm/bfs.rs: next", "src/algorithm/dfs.rs: next", "src/generic/iter.rs: next"]}
{"id": "C191", "title": "Searches that go on after a panic", "statement": "A search of a damaged frozen graph whose panics are caught, and which is asked again, loses exactly the nodes whose rows are torn: each node whose row is there is answered once, no other is, the first node_count() calls each answer one node or panic, and all later calls answer None. The order is that of the graph in which the torn rows are empty. Of anything behind the traits: the calls answer for the nodes of one list without repetitions, beginning with the start and holding every node, each with the node or with the panic of its neighbours.", "quantifier": "every pair of arrays, any number of nodes the ids can hold, every start, any number of calls, breadth-first and depth-first", "why_tests_cant": "no test catches a panic and goes on; the state after a panic is in no signature", "anchors": ["src/algorithm/bfs.rs: new, next, next_unvisited_node", "src/algorithm/dfs.rs: new, next, next_unvisited_node, move_to", "src/graph_impl/static_graph/edge_vec.rs: neighbors"]}
{"id": "C192", "title": "Which laws of an equivalence equal and == keep", "statement": "Both comparisons are reflexive and transitive (== unless the counters of the outer two add up to usize::MAX). equal is symmetric between two graphs exactly if they list equally many edges, hence whenever both edge counters are right; both ways round, equal holds exactly for the same labelled graph with the same counter and == exactly for the same labelled graph, and boxed graphs that are equal both ways hash alike, as keys of a map must. Neither is symmetric: a graph with an edge added twice is equal to one with two edges, which is not equal to it and hashes otherwise.", "quantifier": "every two or three graphs of any implementations and label-id types", "why_tests_cant": "laws over pairs and triples of graphs; the usual test compares graphs that are the same", "anchors": ["src/generic/graph.rs: equal, PartialEq, Hash", "src/graph_impl/graph_map/graph.rs: PartialEq, Hash", "src/graph_impl/static_graph/graph.rs: PartialEq, Hash"]}
{"id": "C193", "title": "How often an enumeration of the edges searches", "statement": "Enumerating the edges of a frozen or mapped graph makes no binary search if the graph is directed, and if it is undirected exactly one in the row of each node that has a neighbour less than itself: row after row, none twice, so fewer searches than nodes.", "quantifier": "every pair of arrays over which the enumeration ends, sorted or not, up to the number of nodes the ids can hold", "why_tests_cant": "a search too many changes no result", "anchors": ["src/graph_impl/static_graph/static_edge_iter.rs: next"]}
{"id": "C194", "title": "edges() after its end", "statement": "Asked again and again, edges() of a frozen or mapped graph answers its edges and then None for ever if the pairs can be enumerated. In general, with labels, it answers the pairs that have a label, then None once for each pair that has none, and then for ever what the enumeration of the pairs ends with; so that on a damaged file with too few labels None is followed by a panic.", "quantifier": "every pair of arrays whose enumeration ends or panics, any labels, any number of calls", "why_tests_cant": "tests stop at the first None; arrays and labels that do not fit", "anchors": ["src/graph_impl/static_graph/graph.rs: edges", "src/graph_impl/static_graph/mmap/graph_mmap.rs: edges", "src/graph_impl/static_graph/static_edge_iter.rs: next"]}
{"id": "C195", "title": "Degrees of frozen graphs from any file", "statement": "The degrees of all nodes of a frozen graph can be asked exactly if the offsets are there and in order, and then they sum up to the difference of the last and the first, whatever the entries are. As many edges of a directed graph are listed as that; in an undirected graph with sorted symmetric rows the degrees and the self loops sum up to twice the listed edges, so that edge_count of a graph made without a number falls short by half the self loops, rounded up. Mapped graphs answer the same, exactly if no offset is beyond the array.", "quantifier": "every pair of arrays with at most as many rows as there are ids; every number of nodes", "why_tests_cant": "arrays no conversion makes; sums over all nodes; self loops counted once", "anchors": ["src/graph_impl/static_graph/edge_vec.rs: degree", "src/graph_impl/static_graph/graph.rs: degree", "src/graph_impl/static_graph/graph.rs: new", "src/graph_impl/static_graph/mmap/graph_mmap.rs: degree", "src/graph_impl/static_graph/static_edge_iter.rs: next"]}
{"id": "C196", "title": "In-neighbours of frozen graphs", "statement": "in_neighbors and in_degree of a frozen graph look at its second arrays alone, and panic without them. If both pairs of arrays are packed, in- and out-neighbours name each other exactly if the rows of the one are the columns of the other; then both have as many entries and the degrees the same sum; and the first pair leaves no choice for the second. So into_static gives graphs with the same out-neighbours the same in-neighbours. A file may hold others.", "quantifier": "every frozen graph, whatever its arrays; all pairs of packed arrays; all frozen graphs", "why_tests_cant": "tests compare in- and out-neighbours of a few graphs; uniqueness is about all arrays", "anchors": ["src/graph_impl/static_graph/graph.rs: in_neighbors", "src/graph_impl/static_graph/graph.rs: in_degree", "src/graph_impl/static_graph/edge_vec.rs: neighbors", "src/graph_impl/graph_map/graph.rs: into_static"]}
{"id": "C197", "title": "Lines printed by stats", "statement": "stats prints for one file after another the largest degree and a line for every label of the nodes and of the edges, in the order of most_common; it ends well exactly if it finds the figures of every file. Otherwise it stops at the first file where it does not, whose name is the last thing printed, save perhaps the largest degree, if only the labels cannot be counted. Whatever the order among equally frequent labels, the counts are the same line by line, never increase and add up to the number of labels.", "quantifier": "every file system, list of files and order most_common may give", "why_tests_cant": "output of damaged files; orders that depend on hashing", "anchors": ["examples/stats.rs: main", "src/generic/graph.rs: get_node_label_counter", "src/generic/graph.rs: get_edge_label_counter"]}
{"id": "C198", "title": "Figures of CSV files", "statement": "CSV files that are read as a graph with at least one node and without labels, with ids 0..n-1 or the flag --reorder_nodes: given room on the disk csv_to_static ends well, and stats on the file it leaves gives the largest degree of the graph that was read and no labels, for directed graphs too, although the file is written with text as labels and read as undirected with numbers as labels.", "quantifier": "every CSV input of this kind, every choice of flags, every file system with room for the file", "why_tests_cant": "two programs with different label types and directions over one file; all inputs", "anchors": ["examples/csv_to_static.rs: main", "examples/stats.rs: main", "src/graph_impl/static_graph/graph.rs: degree"]}
{"id": "C199", "title": "Figures without labels", "statement": "Of a file for which stats gives figures, remove_labels, given room on the disk, makes a file for which stats gives the same largest degree and no labels, and leaves the figures of its input as they were unless it overwrites it; this needs nothing of the arrays in the file. Not the other way round: a file whose nodes have too few labels makes stats panic, but not once the labels are removed.", "quantifier": "every file and file system, damaged files included", "why_tests_cant": "damaged files; all graphs", "anchors": ["examples/remove_labels.rs: main", "examples/stats.rs: main", "src/graph_impl/static_graph/graph.rs: remove_labels"]}
{"id": "C200", "title": "Label tools in sequence", "statement": "Of what remove_labels leaves, vary_labels makes nothing: it panics and leaves the disk alone. A second remove_labels writes the same bytes again. Of the file of a graph and of the file vary_labels makes of it, whatever it draws, remove_labels makes the same bytes.", "quantifier": "every file that can be read, every sequence of draws, every file system with room", "why_tests_cant": "all draws of a random generator; byte-identical output for all graphs", "anchors": ["examples/remove_labels.rs: main", "examples/vary_labels.rs: main", "src/graph_impl/static_graph/graph.rs: remove_labels"]}
