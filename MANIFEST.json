{
 "claims": [
  {
   "property": "C01",
   "status": "proved",
   "theorems": [
    "Verif.Props.c01_setmap_bijection"
   ],
   "note": ""
  },
  {
   "property": "C02",
   "status": "proved",
   "theorems": [
    "Verif.Props.c02_add_item",
    "Verif.Props.c02_pop_clear",
    "Verif.Props.c02_index_stable"
   ],
   "note": ""
  },
  {
   "property": "C03",
   "status": "proved",
   "theorems": [
    "Verif.Props.c03_vecmap_setmap_agree",
    "Verif.Props.c03_conversions",
    "Verif.Props.c03_duplicates_shift"
   ],
   "note": ""
  },
  {
   "property": "C04",
   "status": "proved",
   "theorems": [
    "Verif.Props.c04_bulk_construction",
    "Verif.Props.c04_vec_map"
   ],
   "note": ""
  },
  {
   "property": "C05",
   "status": "proved",
   "theorems": [
    "Verif.Props.c05_has_node",
    "Verif.Props.c05_node_label"
   ],
   "note": "has_node for all histories; labels for histories that name labels (raw label-id writes are C56) within label-id capacity"
  },
  {
   "property": "C06",
   "status": "proved",
   "theorems": [
    "Verif.Props.c06_has_edge",
    "Verif.Props.c06_edge_label"
   ],
   "note": "as C05"
  },
  {
   "property": "C07",
   "status": "proved",
   "theorems": [
    "Verif.Props.c07_add_node",
    "Verif.Props.c07_add_edge",
    "Verif.Props.c07_update_node_label",
    "Verif.Props.c07_update_edge_label",
    "Verif.Props.c07_remove_edge",
    "Verif.Props.c07_remove_node"
   ],
   "note": "remove_node on a self loop panics: C59"
  },
  {
   "property": "C08",
   "status": "partial",
   "theorems": [
    "Verif.Props.c08_has_edge_symmetric",
    "Verif.Props.c08_labels_symmetric_partial",
    "Verif.Props.c08_edge_mut_breaks_symmetry",
    "Verif.Props.c08_edges_mut_breaks_symmetry"
   ],
   "note": "symmetric labels are proved for histories without raw writes through get_edge_mut/edges_mut; with them the property is false (witnesses)"
  },
  {
   "property": "C09",
   "status": "proved",
   "theorems": [
    "Verif.Props.c09_neighbors",
    "Verif.Props.c09_in_neighbors",
    "Verif.Props.c09_absent"
   ],
   "note": ""
  },
  {
   "property": "C10",
   "status": "proved",
   "theorems": [
    "Verif.Props.c10_no_dangling"
   ],
   "note": ""
  },
  {
   "property": "C11",
   "status": "proved",
   "theorems": [
    "Verif.Props.c11_nodes",
    "Verif.Props.c11_edges"
   ],
   "note": ""
  },
  {
   "property": "C12",
   "status": "partial",
   "theorems": [
    "Verif.Props.c12_edge_count_partial",
    "Verif.Props.c12_edge_count_drifts"
   ],
   "note": "false in general (witness); true for histories without redundant insertions; exact value in C60"
  },
  {
   "property": "C13",
   "status": "partial",
   "theorems": [
    "Verif.Props.c13_mutators_partial",
    "Verif.Props.c13_remove_node_panics"
   ],
   "note": "false for remove_node on a self loop (witness, exact characterisation in C59)"
  },
  {
   "property": "C14",
   "status": "proved",
   "theorems": [
    "Verif.Props.c14_max_seen_id",
    "Verif.Props.c14_monotone",
    "Verif.Props.c14_bounds_present"
   ],
   "note": ""
  },
  {
   "property": "C15",
   "status": "proved",
   "theorems": [
    "Verif.Props.c15_handshake_directed",
    "Verif.Props.c15_handshake_undirected"
   ],
   "note": ""
  },
  {
   "property": "C16",
   "status": "proved",
   "theorems": [
    "Verif.Props.c16_node_label_ids",
    "Verif.Props.c16_edge_label_ids",
    "Verif.Props.c16_overflow_collides",
    "Verif.Props.c16_edge_overflow_collides"
   ],
   "note": ""
  },
  {
   "property": "C17",
   "status": "proved",
   "theorems": [
    "Verif.Props.c17_remove_node"
   ],
   "note": ""
  },
  {
   "property": "C56",
   "status": "proved",
   "theorems": [
    "Verif.Props.c56_set_node_label",
    "Verif.Props.c56_set_edge_label",
    "Verif.Props.c56_nodes_mut",
    "Verif.Props.c56_edges_mut"
   ],
   "note": ""
  },
  {
   "property": "C58",
   "status": "proved",
   "theorems": [
    "Verif.Props.c58_from_edges"
   ],
   "note": ""
  },
  {
   "property": "C59",
   "status": "proved",
   "theorems": [
    "Verif.Props.c59_remove_node_panics_iff"
   ],
   "note": ""
  },
  {
   "property": "C60",
   "status": "proved",
   "theorems": [
    "Verif.Props.c60_edge_count_exact"
   ],
   "note": ""
  },
  {
   "property": "C18",
   "status": "partial",
   "theorems": [
    "Verif.Props.c18_eq_partial",
    "Verif.Props.c18_eq_not_equality"
   ],
   "note": "false as stated (C61 has the exact behaviour); proved for graphs with equally many nodes and edges"
  },
  {
   "property": "C19",
   "status": "partial",
   "theorems": [
    "Verif.Props.c19_same_graph_same_hash",
    "Verif.Props.c19_boxed_hash_partial",
    "Verif.Props.c19_typed_hash_partial",
    "Verif.Props.c19_equal_hash_differs",
    "Verif.Props.c19_boxed_hash_differs"
   ],
   "note": "false for the typed == and for boxed graphs with drifted edge_count; the same labelled graph always hashes alike"
  },
  {
   "property": "C20",
   "status": "partial",
   "theorems": [
    "Verif.Props.c20_equal_views_partial",
    "Verif.Props.c20_equal_partial",
    "Verif.Props.c20_equal_misjudges"
   ],
   "note": "needs exact edge counts, otherwise false (witness)"
  },
  {
   "property": "C21",
   "status": "proved",
   "theorems": [
    "Verif.Props.c21_node_label_counter",
    "Verif.Props.c21_edge_label_counter",
    "Verif.Props.c21_node_label_id_counter",
    "Verif.Props.c21_edge_label_id_counter",
    "Verif.Props.c21_listed_node_labels",
    "Verif.Props.c21_listed_edge_labels"
   ],
   "note": ""
  },
  {
   "property": "C61",
   "status": "proved",
   "theorems": [
    "Verif.Props.c61_eq_is_containment",
    "Verif.Props.c61_eq_exact",
    "Verif.Props.c61_graphmap"
   ],
   "note": ""
  },
  {
   "property": "C22",
   "status": "proved",
   "theorems": [
    "Verif.Props.c22_binary_search",
    "Verif.Props.c22_from_raw",
    "Verif.Props.c22_from_raw_checks",
    "Verif.Props.c22_counts",
    "Verif.Props.c22_neighbors",
    "Verif.Props.c22_has_edge",
    "Verif.Props.c22_find_edge_index",
    "Verif.Props.c22_find_edge_label_id"
   ],
   "note": ""
  },
  {
   "property": "C23",
   "status": "proved",
   "theorems": [
    "Verif.Props.c23_edge_iteration",
    "Verif.Props.c23_more_fuel"
   ],
   "note": ""
  },
  {
   "property": "C24",
   "status": "proved",
   "theorems": [
    "Verif.Props.c24_into_static_keeps_graph",
    "Verif.Props.c24_shows",
    "Verif.Props.c24_reserved_label"
   ],
   "note": ""
  },
  {
   "property": "C25",
   "status": "proved",
   "theorems": [
    "Verif.Props.c25_sparse",
    "Verif.Props.c25_gap"
   ],
   "note": ""
  },
  {
   "property": "C26",
   "status": "proved",
   "theorems": [
    "Verif.Props.c26_into_static_succeeds_iff",
    "Verif.Props.c26_failures"
   ],
   "note": ""
  },
  {
   "property": "C27",
   "status": "partial",
   "theorems": [
    "Verif.Props.c27_edges_agree_partial",
    "Verif.Props.c27_undirected_wrong",
    "Verif.Props.c27_nodes_agree"
   ],
   "note": "false for labelled undirected graphs (witness); proved for directed or unlabelled ones"
  },
  {
   "property": "C28",
   "status": "proved",
   "theorems": [
    "Verif.Props.c28_structure_kept",
    "Verif.Props.c28_node_labels_gone",
    "Verif.Props.c28_edge_labels_gone",
    "Verif.Props.c28_other_labels_kept"
   ],
   "note": ""
  },
  {
   "property": "C62",
   "status": "proved",
   "theorems": [
    "Verif.Props.c62_wraps_forever"
   ],
   "note": ""
  },
  {
   "property": "C63",
   "status": "proved",
   "theorems": [
    "Verif.Props.c63_default_counts",
    "Verif.Props.c63_given_counts",
    "Verif.Props.c63_constructs"
   ],
   "note": ""
  },
  {
   "property": "C64",
   "status": "proved",
   "theorems": [
    "Verif.Props.c64_clear_rest",
    "Verif.Props.c64_clear_breaks"
   ],
   "note": ""
  },
  {
   "property": "C29",
   "status": "proved",
   "theorems": [
    "Verif.Props.c29_reorder_isomorphism",
    "Verif.Props.c29_reorder_history"
   ],
   "note": "label ids must be label indices and one per undirected edge where label ids are reordered (always so for histories that name labels); otherwise it panics (c65_*)"
  },
  {
   "property": "C30",
   "status": "proved",
   "theorems": [
    "Verif.Props.c30_reorder_ids",
    "Verif.Props.c30_reorder_sorted",
    "Verif.Props.c30_reorder_node_labels",
    "Verif.Props.c30_reorder_edge_labels"
   ],
   "note": ""
  },
  {
   "property": "C65",
   "status": "proved",
   "theorems": [
    "Verif.Props.c65_reorder_with_total",
    "Verif.Props.c65_reorder_with_isomorphism",
    "Verif.Props.c65_asymmetric_panics",
    "Verif.Props.c65_unknown_id_panics"
   ],
   "note": ""
  },
  {
   "property": "C31",
   "status": "proved",
   "theorems": [
    "Verif.Props.c31_bfs_visits_once",
    "Verif.Props.c31_new",
    "Verif.Props.c31_deterministic"
   ],
   "note": ""
  },
  {
   "property": "C32",
   "status": "proved",
   "theorems": [
    "Verif.Props.c32_bfs_breadth_first"
   ],
   "note": ""
  },
  {
   "property": "C33",
   "status": "proved",
   "theorems": [
    "Verif.Props.c33_dfs_visits_once"
   ],
   "note": ""
  },
  {
   "property": "C34",
   "status": "partial",
   "theorems": [
    "Verif.Props.c34_dfs_depth_first_partial",
    "Verif.Props.c34_dfs_first_seen_partial",
    "Verif.Props.c34_not_depth_first"
   ],
   "note": "false of the code in general (c34_not_depth_first: nodes are marked when pushed); proved for graphs without cycles, and in general with respect to the first visited node leading to c; exact order in C66"
  },
  {
   "property": "C66",
   "status": "proved",
   "theorems": [
    "Verif.Props.c66_bfs_order",
    "Verif.Props.c66_dfs_order"
   ],
   "note": ""
  },
  {
   "property": "C67",
   "status": "proved",
   "theorems": [
    "Verif.Props.c67_dfs_reset"
   ],
   "note": ""
  },
  {
   "property": "C35",
   "status": "proved",
   "theorems": [
    "Verif.Props.c35_process_total",
    "Verif.Props.c35_is_connected",
    "Verif.Props.c35_graph"
   ],
   "note": ""
  },
  {
   "property": "C36",
   "status": "proved",
   "theorems": [
    "Verif.Props.c36_count",
    "Verif.Props.c36_connected_nodes",
    "Verif.Props.c36_graph"
   ],
   "note": ""
  },
  {
   "property": "C37",
   "status": "proved",
   "theorems": [
    "Verif.Props.c37_parent",
    "Verif.Props.c37_root",
    "Verif.Props.c37_unknown_panics",
    "Verif.Props.c37_query_invisible"
   ],
   "note": "get_root panics exactly for nodes never seen on an edge"
  },
  {
   "property": "C38",
   "status": "proved",
   "theorems": [
    "Verif.Props.c38_order_independent"
   ],
   "note": ""
  },
  {
   "property": "C40",
   "status": "partial",
   "theorems": [
    "Verif.Props.c40_union_partial",
    "Verif.Props.c40_labels_collide"
   ],
   "note": "false when the labels of both graphs do not fit the label-id type (c40_labels_collide); proved when they fit; structure in every case in C68"
  },
  {
   "property": "C41",
   "status": "proved",
   "theorems": [
    "Verif.Props.c41_minus"
   ],
   "note": "including the exact panic condition"
  },
  {
   "property": "C42",
   "status": "proved",
   "theorems": [
    "Verif.Props.c42_clone",
    "Verif.Props.c42_clone_equal"
   ],
   "note": ""
  },
  {
   "property": "C68",
   "status": "proved",
   "theorems": [
    "Verif.Props.c68_union_structure"
   ],
   "note": ""
  },
  {
   "property": "C39",
   "status": "proved",
   "theorems": [
    "Verif.Props.c39_components",
    "Verif.Props.c39_partition",
    "Verif.Props.c39_isolated_panics"
   ],
   "note": "with an isolated node the call panics (c39_isolated_panics)"
  },
  {
   "property": "C43",
   "status": "proved",
   "theorems": [
    "Verif.Props.c43_empty_graph",
    "Verif.Props.c43_complete_graph"
   ],
   "note": "sizes that fit the id type; beyond that C71"
  },
  {
   "property": "C44",
   "status": "proved",
   "theorems": [
    "Verif.Props.c44_gnm",
    "Verif.Props.c44_gnm_too_many"
   ],
   "note": ""
  },
  {
   "property": "C45",
   "status": "partial",
   "theorems": [
    "Verif.Props.c45_gnp_partial",
    "Verif.Props.c45_gnp_panics"
   ],
   "note": "'panics exactly for p outside [0,1]' is false for NaN, see C69; everything else proved"
  },
  {
   "property": "C69",
   "status": "proved",
   "theorems": [
    "Verif.Props.c69_gnp_nan"
   ],
   "note": ""
  },
  {
   "property": "C71",
   "status": "proved",
   "theorems": [
    "Verif.Props.c71_complete_wraps",
    "Verif.Props.c71_complete_edges",
    "Verif.Props.c71_gnm_wraps",
    "Verif.Props.c71_gnp_wraps",
    "Verif.Props.c71_empty_wraps"
   ],
   "note": ""
  },
  {
   "property": "C72",
   "status": "proved",
   "theorems": [
    "Verif.Props.c72_gnm_any",
    "Verif.Props.c72_gnp_any",
    "Verif.Props.c72_label_any"
   ],
   "note": ""
  },
  {
   "property": "C70",
   "status": "proved",
   "theorems": [
    "Verif.Props.c70_move_to",
    "Verif.Props.c70_move_to_order",
    "Verif.Props.c70_move_to_panics"
   ],
   "note": ""
  },
  {
   "property": "C46",
   "status": "proved",
   "theorems": [
    "Verif.Props.c46_set_map",
    "Verif.Props.c46_vec_map",
    "Verif.Props.c46_graph_map",
    "Verif.Props.c46_any_order",
    "Verif.Props.c46_static_graph",
    "Verif.Props.c46_frozen"
   ],
   "note": "bincode byte format modelled; sizes below 2^64; label codec hypotheses only for labels present"
  },
  {
   "property": "C47",
   "status": "proved",
   "theorems": [
    "Verif.Props.c47_round_trip",
    "Verif.Props.c47_no_edges"
   ],
   "note": "for every frozen reachable graph with an edge; without edges loading panics"
  },
  {
   "property": "C48",
   "status": "partial",
   "theorems": [
    "Verif.Props.c48_overwrite_partial",
    "Verif.Props.c48_leftover_in_edges",
    "Verif.Props.c48_wrong_graph"
   ],
   "note": "false in general; proved when no file is left that the new dump does not write"
  },
  {
   "property": "C49",
   "status": "proved",
   "theorems": [
    "Verif.Props.c49_dump",
    "Verif.Props.c49_bytes",
    "Verif.Props.c49_full_inside",
    "Verif.Props.c49_round",
    "Verif.Props.c49_range_from",
    "Verif.Props.c49_range_to",
    "Verif.Props.c49_pieces"
   ],
   "note": "map[..e] is never refused: it is inside the file exactly if e <= len"
  },
  {
   "property": "C50",
   "status": "proved",
   "theorems": [
    "Verif.Props.c50_answers",
    "Verif.Props.c50_frozen",
    "Verif.Props.c50_undirected_in"
   ],
   "note": "get_edge shares the exception of has_edge"
  },
  {
   "property": "C55",
   "status": "partial",
   "theorems": [
    "Verif.Props.c55_crash_partial",
    "Verif.Props.c55_wrong_graph"
   ],
   "note": "false in general; holds once the auxiliary file is created"
  },
  {
   "property": "C73",
   "status": "proved",
   "theorems": [
    "Verif.Props.c73_truncated",
    "Verif.Props.c73_formats",
    "Verif.Props.c73_graph_map",
    "Verif.Props.c73_static_graph"
   ],
   "note": ""
  },
  {
   "property": "C74",
   "status": "proved",
   "theorems": [
    "Verif.Props.c74_silent_loss",
    "Verif.Props.c74_dump_reports",
    "Verif.Props.c74_dump_mmap"
   ],
   "note": ""
  },
  {
   "property": "C75",
   "status": "proved",
   "theorems": [
    "Verif.Props.c75_direction_not_stored",
    "Verif.Props.c75_unreachable"
   ],
   "note": ""
  },
  {
   "property": "C51",
   "status": "proved",
   "theorems": [
    "Verif.Props.c51_round_trip",
    "Verif.Props.c51_empty_labels",
    "Verif.Props.c51_graph_map",
    "Verif.Props.c51_empty_label_lost"
   ],
   "note": "csv crate modelled byte by byte; labels take one field"
  },
  {
   "property": "C52",
   "status": "proved",
   "theorems": [
    "Verif.Props.c52_nodes",
    "Verif.Props.c52_edges",
    "Verif.Props.c52_nodes_plain",
    "Verif.Props.c52_edges_plain",
    "Verif.Props.c52_read",
    "Verif.Props.c52_bad_row",
    "Verif.Props.c52_bad_edge_row",
    "Verif.Props.c52_rows",
    "Verif.Props.c52_empty_label_depends"
   ],
   "note": "rows are CSV records: an unclosed quote swallows the rest of the file; with headers for a usable header, see C76"
  },
  {
   "property": "C57",
   "status": "proved",
   "theorems": [
    "Verif.Props.c57_separator",
    "Verif.Props.c57_separator_panics",
    "Verif.Props.c57_names"
   ],
   "note": "lower-casing of non-ASCII characters enters through a table about which only Unicode facts are assumed"
  },
  {
   "property": "C76",
   "status": "proved",
   "theorems": [
    "Verif.Props.c76_bad_header",
    "Verif.Props.c76_bad_edge_header",
    "Verif.Props.c76_read"
   ],
   "note": ""
  },
  {
   "property": "C53",
   "status": "proved",
   "theorems": [
    "Verif.Props.c53_loaded",
    "Verif.Props.c53_needed",
    "Verif.Props.c53_too_many",
    "Verif.Props.c53_order",
    "Verif.Props.c53_labels",
    "Verif.Props.c53_represented",
    "Verif.Props.c53_injective",
    "Verif.Props.c53_collision",
    "Verif.Props.c53_unit_id"
   ],
   "note": "for ids other than (); kind names are followed by digits, otherwise keys can collide; labels must fit the label ids"
  },
  {
   "property": "C54",
   "status": "partial",
   "theorems": [
    "Verif.Props.c54_once_partial",
    "Verif.Props.c54_edge_count",
    "Verif.Props.c54_doubled",
    "Verif.Props.c54_same_graph",
    "Verif.Props.c54_twice"
   ],
   "note": "false for the two relations registered twice, which c54_doubled and c54_twice state; proved for all others"
  },
  {
   "property": "C77",
   "status": "proved",
   "theorems": [
    "Verif.Props.c77_last_wins",
    "Verif.Props.c77_lost"
   ],
   "note": ""
  },
  {
   "property": "C78",
   "status": "proved",
   "theorems": [
    "Verif.Props.c78_outcome",
    "Verif.Props.c78_events",
    "Verif.Props.c78_no_directory",
    "Verif.Props.c78_read_from_path",
    "Verif.Props.c78_short_header"
   ],
   "note": ""
  },
  {
   "property": "C79",
   "status": "proved",
   "theorems": [
    "Verif.Props.c79_node",
    "Verif.Props.c79_edge",
    "Verif.Props.c79_iter",
    "Verif.Props.c79_static_node",
    "Verif.Props.c79_static_edge",
    "Verif.Props.c79_static_nodes",
    "Verif.Props.c79_static_edges"
   ],
   "note": "edges() of a frozen labelled undirected graph: see C27"
  },
  {
   "property": "C80",
   "status": "proved",
   "theorems": [
    "Verif.Props.c80_node_mut",
    "Verif.Props.c80_edge_mut",
    "Verif.Props.c80_iter_mut",
    "Verif.Props.c80_owned",
    "Verif.Props.c80_set"
   ],
   "note": ""
  },
  {
   "property": "C81",
   "status": "proved",
   "theorems": [
    "Verif.Props.c81_frame",
    "Verif.Props.c81_panics_iff",
    "Verif.Props.c81_out",
    "Verif.Props.c81_in",
    "Verif.Props.c81_set_neighbor",
    "Verif.Props.c81_dangling",
    "Verif.Props.c81_asymmetric",
    "Verif.Props.c81_add_edge"
   ],
   "note": ""
  },
  {
   "property": "C82",
   "status": "proved",
   "theorems": [
    "Verif.Props.c82_tables",
    "Verif.Props.c82_nodes",
    "Verif.Props.c82_edges"
   ],
   "note": ""
  },
  {
   "property": "C83",
   "status": "proved",
   "theorems": [
    "Verif.Props.c83_node_label",
    "Verif.Props.c83_edge_label",
    "Verif.Props.c83_node_label_right_iff",
    "Verif.Props.c83_edge_label_right_iff",
    "Verif.Props.c83_labels_symmetric"
   ],
   "note": "extends C05, C06, C08 and C16 past the capacity of label ids"
  },
  {
   "property": "C84",
   "status": "proved",
   "theorems": [
    "Verif.Props.c84_equal_exact",
    "Verif.Props.c84_equal_right_iff",
    "Verif.Props.c84_hash_data_iff",
    "Verif.Props.c84_boxed_hash_data_iff",
    "Verif.Props.c84_boxed_hash_alike_iff",
    "Verif.Props.c84_typed_hash_alike_iff"
   ],
   "note": "exact form of what C18-C20 claim"
  },
  {
   "property": "C85",
   "status": "proved",
   "theorems": [
    "Verif.Props.c85_edges",
    "Verif.Props.c85_agree_iff",
    "Verif.Props.c85_pairs"
   ],
   "note": "exact form of what C27 claims"
  },
  {
   "property": "C86",
   "status": "proved",
   "theorems": [
    "Verif.Props.c86_union_labels"
   ],
   "note": "exact form of what C40 claims on labels"
  },
  {
   "property": "C87",
   "status": "proved",
   "theorems": [
    "Verif.Props.c87_union_any"
   ],
   "note": ""
  },
  {
   "property": "C88",
   "status": "proved",
   "theorems": [
    "Verif.Props.c88_write_read",
    "Verif.Props.c88_graph_map"
   ],
   "note": "node and edge path differ; labels with empty text are lost, as C51 shows"
  },
  {
   "property": "C89",
   "status": "proved",
   "theorems": [
    "Verif.Props.c89_silent_loss",
    "Verif.Props.c89_beginnings",
    "Verif.Props.c89_success"
   ],
   "note": ""
  },
  {
   "property": "C90",
   "status": "proved",
   "theorems": [
    "Verif.Props.c90_panics",
    "Verif.Props.c90_outcome"
   ],
   "note": ""
  },
  {
   "property": "C91",
   "status": "proved",
   "theorems": [
    "Verif.Props.c91_unreadable",
    "Verif.Props.c91_converts_iff",
    "Verif.Props.c91_converts"
   ],
   "note": "import is shown for dense ids and label tables that fit; the failing cases are C26 and C47"
  },
  {
   "property": "C92",
   "status": "proved",
   "theorems": [
    "Verif.Props.c92_flag_ignored"
   ],
   "note": ""
  },
  {
   "property": "C93",
   "status": "proved",
   "theorems": [
    "Verif.Props.c93_graphs",
    "Verif.Props.c93_checks"
   ],
   "note": ""
  },
  {
   "property": "C94",
   "status": "proved",
   "theorems": [
    "Verif.Props.c94_targets"
   ],
   "note": ""
  },
  {
   "property": "C95",
   "status": "proved",
   "theorems": [
    "Verif.Props.c95_ends_iff",
    "Verif.Props.c95_fair",
    "Verif.Props.c95_never_ends"
   ],
   "note": "turns of the inner loop are bounded by fuel; the theorems hold for every bound"
  },
  {
   "property": "C96",
   "status": "proved",
   "theorems": [
    "Verif.Props.c96_failed_export",
    "Verif.Props.c96_full_disk",
    "Verif.Props.c96_files"
   ],
   "note": "sizes below 2^64"
  },
  {
   "property": "C97",
   "status": "proved",
   "theorems": [
    "Verif.Props.c97_set_map",
    "Verif.Props.c97_vec_map",
    "Verif.Props.c97_graph_map",
    "Verif.Props.c97_static_graph"
   ],
   "note": ""
  },
  {
   "property": "C98",
   "status": "proved",
   "theorems": [
    "Verif.Props.c98_static_counts",
    "Verif.Props.c98_static_phantom",
    "Verif.Props.c98_graph_map_any",
    "Verif.Props.c98_dangling"
   ],
   "note": ""
  },
  {
   "property": "C99",
   "status": "proved",
   "theorems": [
    "Verif.Props.c99_unreadable",
    "Verif.Props.c99_removes"
   ],
   "note": ""
  },
  {
   "property": "C100",
   "status": "proved",
   "theorems": [
    "Verif.Props.c100_panics",
    "Verif.Props.c100_varies"
   ],
   "note": "the label table is shorter than 2^64 - 4; ids of at least 15 values"
  },
  {
   "property": "C101",
   "status": "proved",
   "theorems": [
    "Verif.Props.c101_reports",
    "Verif.Props.c101_eleven",
    "Verif.Props.c101_short",
    "Verif.Props.c101_long"
   ],
   "note": ""
  },
  {
   "property": "C102",
   "status": "proved",
   "theorems": [
    "Verif.Props.c102_empty",
    "Verif.Props.c102_counts",
    "Verif.Props.c102_frozen",
    "Verif.Props.c102_gap"
   ],
   "note": "the order of the printed lines is not modelled"
  },
  {
   "property": "C103",
   "status": "proved",
   "theorems": [
    "Verif.Props.c103_same_iff",
    "Verif.Props.c103_histories",
    "Verif.Props.c103_ids",
    "Verif.Props.c103_fed_iff",
    "Verif.Props.c103_contract_broken",
    "Verif.Props.c103_repeats",
    "Verif.Props.c103_vec_map",
    "Verif.Props.c103_vec_map_length"
   ],
   "note": "labels feed the hasher words of one length"
  },
  {
   "property": "C104",
   "status": "proved",
   "theorems": [
    "Verif.Props.c104_flag",
    "Verif.Props.c104_unreadable",
    "Verif.Props.c104_readable",
    "Verif.Props.c104_pipeline"
   ],
   "note": "largest id below the maximum of the id type; sizes below 2^64"
  },
  {
   "property": "C105",
   "status": "proved",
   "theorems": [
    "Verif.Props.c105_unreadable",
    "Verif.Props.c105_round_trip",
    "Verif.Props.c105_directed_halved",
    "Verif.Props.c105_lost"
   ],
   "note": "node and edge path differ; sizes below 2^64"
  },
  {
   "property": "C106",
   "status": "proved",
   "theorems": [
    "Verif.Props.c106_reads_iff",
    "Verif.Props.c106_unreadable",
    "Verif.Props.c106_written",
    "Verif.Props.c106_name",
    "Verif.Props.c106_pipeline"
   ],
   "note": "sizes below 2^64; no empty labels for the CSV part"
  },
  {
   "property": "C107",
   "status": "proved",
   "theorems": [
    "Verif.Props.c107_static_refused"
   ],
   "note": "largest id below the maximum of the id type"
  },
  {
   "property": "C108",
   "status": "proved",
   "theorems": [
    "Verif.Props.c108_tables",
    "Verif.Props.c108_unlabelled",
    "Verif.Props.c108_edge_labels_misread",
    "Verif.Props.c108_length_for_label",
    "Verif.Props.c108_node_label_refused"
   ],
   "note": "sizes below 2^64; the refused files have tables of less than 16 GiB"
  },
  {
   "property": "C109",
   "status": "proved",
   "theorems": [
    "Verif.Props.c109_loads",
    "Verif.Props.c109_over",
    "Verif.Props.c109_right_iff"
   ],
   "note": "arrays not empty; no file of in-edge labels without in-edges; exact counterpart of C48"
  },
  {
   "property": "C110",
   "status": "proved",
   "theorems": [
    "Verif.Props.c110_exact",
    "Verif.Props.c110_arrays_done",
    "Verif.Props.c110_loses_edges",
    "Verif.Props.c110_either"
   ],
   "note": "arrays not empty; a crash loses what was not written yet and nothing else; exact counterpart of C55"
  },
  {
   "property": "C111",
   "status": "proved",
   "theorems": [
    "Verif.Props.c111_gnp_zero",
    "Verif.Props.c111_gnp_one",
    "Verif.Props.c111_gnm",
    "Verif.Props.c111_read_into",
    "Verif.Props.c111_csv"
   ],
   "note": "fewer than 2^31 nodes, so that counts stay in usize; label lists not longer than the label-id type; labels with non-empty texts that parse back"
  },
  {
   "property": "C112",
   "status": "proved",
   "theorems": [
    "Verif.Props.c112_exact",
    "Verif.Props.c112_load",
    "Verif.Props.c112_untouched",
    "Verif.Props.c112_within_offsets",
    "Verif.Props.c112_within_edges",
    "Verif.Props.c112_arrays_done"
   ],
   "note": "arrays of the new graph not empty; for the cases with an old graph: it has its auxiliary file and no labels of in-edges without in-edges"
  },
  {
   "property": "C113",
   "status": "proved",
   "theorems": [
    "Verif.Props.c113_bfs_order_unique",
    "Verif.Props.c113_dfs_order_unique",
    "Verif.Props.c113_bfs",
    "Verif.Props.c113_dfs"
   ],
   "note": "the searches begin at the same node; without a given start the first node of the enumeration is taken"
  },
  {
   "property": "C114",
   "status": "proved",
   "theorems": [
    "Verif.Props.c114_interchangeable",
    "Verif.Props.c114_stages",
    "Verif.Props.c114_csv"
   ],
   "note": "sizes below 2^64, label tables within the label-id type but for its last value; CSV: no label with an empty text"
  },
  {
   "property": "C115",
   "status": "proved",
   "theorems": [
    "Verif.Props.c115_bfs",
    "Verif.Props.c115_dfs",
    "Verif.Props.c115_gap",
    "Verif.Props.c115_components",
    "Verif.Props.c115_mapped_like",
    "Verif.Props.c115_mapped_bfs",
    "Verif.Props.c115_mapped_dfs",
    "Verif.Props.c115_mapped_components"
   ],
   "note": "mapped: C47 gives AnswersLike for what is loaded"
  },
  {
   "property": "C116",
   "status": "proved",
   "theorems": [
    "Verif.Props.c116_no_guard",
    "Verif.Props.c116_root",
    "Verif.Props.c116_is_connected",
    "Verif.Props.c116_connected_nodes"
   ],
   "note": "the guards a query takes itself end within its statement; checked by reading"
  },
  {
   "property": "C117",
   "status": "proved",
   "theorems": [
    "Verif.Props.c117_no_underflow",
    "Verif.Props.c117_step",
    "Verif.Props.c117_answers",
    "Verif.Props.c117_run",
    "Verif.Props.c117_same"
   ],
   "note": "64-bit usize"
  },
  {
   "property": "C118",
   "status": "proved",
   "theorems": [
    "Verif.Props.c118_into_static",
    "Verif.Props.c118_adjacency",
    "Verif.Props.c118_degree_wraps",
    "Verif.Props.c118_no_offsets",
    "Verif.Props.c118_max_seen",
    "Verif.Props.c118_range_from"
   ],
   "note": "64-bit usize; arrays and files shorter than 2^64"
  },
  {
   "property": "C119",
   "status": "proved",
   "theorems": [
    "Verif.Props.c119_agrees",
    "Verif.Props.c119_loaded",
    "Verif.Props.c119_too_many"
   ],
   "note": "the edge counter is modulo 2^64, see C117"
  },
  {
   "property": "C120",
   "status": "proved",
   "theorems": [
    "Verif.Props.c120_as_digraph",
    "Verif.Props.c120_in_neighbors",
    "Verif.Props.c120_as_mut_graph",
    "Verif.Props.c120_implementation",
    "Verif.Props.c120_boxed",
    "Verif.Props.c120_clone",
    "Verif.Props.c120_eq"
   ],
   "note": ""
  },
  {
   "property": "C121",
   "status": "proved",
   "theorems": [
    "Verif.Props.c121_structure",
    "Verif.Props.c121_labels",
    "Verif.Props.c121_tables",
    "Verif.Props.c121_no_in_edges",
    "Verif.Props.c121_cleared",
    "Verif.Props.c121_direction",
    "Verif.Props.c121_turns_directed"
   ],
   "note": ""
  },
  {
   "property": "C122",
   "status": "proved",
   "theorems": [
    "Verif.Props.c122_same_call",
    "Verif.Props.c122_only_remove_node",
    "Verif.Props.c122_first_panic"
   ],
   "note": ""
  },
  {
   "property": "C123",
   "status": "proved",
   "theorems": [
    "Verif.Props.c123_remove_node",
    "Verif.Props.c123_remove_edge",
    "Verif.Props.c123_panics",
    "Verif.Props.c123_enumerations",
    "Verif.Props.c123_nothing_lost",
    "Verif.Props.c123_nodes",
    "Verif.Props.c123_dangling",
    "Verif.Props.c123_cascade",
    "Verif.Props.c123_one_sided",
    "Verif.Props.c123_underflow",
    "Verif.Props.c123_update_revives"
   ],
   "note": "debug builds: arithmetic panics on overflow"
  },
  {
   "property": "C124",
   "status": "proved",
   "theorems": [
    "Verif.Props.c124_lines",
    "Verif.Props.c124_line_ends",
    "Verif.Props.c124_same_graph"
   ],
   "note": "the csv crate's reader is modelled, not verified"
  },
  {
   "property": "C125",
   "status": "proved",
   "theorems": [
    "Verif.Props.c125_yields",
    "Verif.Props.c125_twice",
    "Verif.Props.c125_never_ends",
    "Verif.Props.c125_panics"
   ],
   "note": "the panic for an entry that is no node: on GraphMap"
  },
  {
   "property": "C126",
   "status": "proved",
   "theorems": [
    "Verif.Props.c126_runs",
    "Verif.Props.c126_panics",
    "Verif.Props.c126_again",
    "Verif.Props.c126_crossing"
   ],
   "note": ""
  },
  {
   "property": "C127",
   "status": "proved",
   "theorems": [
    "Verif.Props.c127_grammar",
    "Verif.Props.c127_unique",
    "Verif.Props.c127_rewrite",
    "Verif.Props.c127_same_graph"
   ],
   "note": "the csv crate's reader is modelled, not verified"
  },
  {
   "property": "C128",
   "status": "proved",
   "theorems": [
    "Verif.Props.c128_frozen",
    "Verif.Props.c128_mapped",
    "Verif.Props.c128_union",
    "Verif.Props.c128_clone",
    "Verif.Props.c128_minus",
    "Verif.Props.c128_csv",
    "Verif.Props.c128_frozen_clone"
   ],
   "note": "Node and edge labels of the frozen graph are assumed to leave one label id free (as in C25); for the union the labels of both must fit the label-id type (as in C40); for the difference both graphs have the same directedness."
  },
  {
   "property": "C129",
   "status": "proved",
   "theorems": [
    "Verif.Props.c129_lists",
    "Verif.Props.c129_clone",
    "Verif.Props.c129_frozen",
    "Verif.Props.c129_bfs",
    "Verif.Props.c129_dfs",
    "Verif.Props.c129_listed_and_denied"
   ],
   "note": ""
  },
  {
   "property": "C130",
   "status": "proved",
   "theorems": [
    "Verif.Props.c130_depth",
    "Verif.Props.c130_turns",
    "Verif.Props.c130_halved",
    "Verif.Props.c130_chain",
    "Verif.Props.c130_total",
    "Verif.Props.c130_detection",
    "Verif.Props.c130_calls"
   ],
   "note": "The cost per edge that the documentation gives is refuted by c130_chain; its total is proved. Resets are left out: after one, counting starts again."
  },
  {
   "property": "C131",
   "status": "proved",
   "theorems": [
    "Verif.Props.c131_bfs",
    "Verif.Props.c131_dfs",
    "Verif.Props.c131_reads"
   ],
   "note": ""
  },
  {
   "property": "C132",
   "status": "proved",
   "theorems": [
    "Verif.Props.c132_chain"
   ],
   "note": "Labelled files are C108: the second program reads tables of text as tables of numbers."
  },
  {
   "property": "C133",
   "status": "proved",
   "theorems": [
    "Verif.Props.c133_step",
    "Verif.Props.c133_history",
    "Verif.Props.c133_panics",
    "Verif.Props.c133_counter",
    "Verif.Props.c133_answers",
    "Verif.Props.c133_same_count",
    "Verif.Props.c133_wraps"
   ],
   "note": ""
  },
  {
   "property": "C134",
   "status": "proved",
   "theorems": [
    "Verif.Props.c134_answers",
    "Verif.Props.c134_total",
    "Verif.Props.c134_isomorphism",
    "Verif.Props.c134_nodes",
    "Verif.Props.c134_merges"
   ],
   "note": ""
  },
  {
   "property": "C135",
   "status": "proved",
   "theorems": [
    "Verif.Props.c135_union_assoc",
    "Verif.Props.c135_union_self",
    "Verif.Props.c135_union_comm",
    "Verif.Props.c135_minus_minus",
    "Verif.Props.c135_minus_self",
    "Verif.Props.c135_union_minus",
    "Verif.Props.c135_minus_union"
   ],
   "note": ""
  },
  {
   "property": "C136",
   "status": "proved",
   "theorems": [
    "Verif.Props.c136_freezes_iff",
    "Verif.Props.c136_keeps_graph",
    "Verif.Props.c136_searches"
   ],
   "note": "with a label flag: label ids in use are known and the same for both directions, otherwise reorder_id panics (C65); tables leave one label id free, as in C25"
  },
  {
   "property": "C137",
   "status": "proved",
   "theorems": [
    "Verif.Props.c137_files",
    "Verif.Props.c137_exported"
   ],
   "note": "lines printed for a file before a panic are not modelled; import of an exported file: C46"
  },
  {
   "property": "C138",
   "status": "proved",
   "theorems": [
    "Verif.Props.c138_run_detection",
    "Verif.Props.c138_union"
   ],
   "note": ""
  },
  {
   "property": "C139",
   "status": "proved",
   "theorems": [
    "Verif.Props.c139_bfs",
    "Verif.Props.c139_dfs"
   ],
   "note": ""
  },
  {
   "property": "C140",
   "status": "proved",
   "theorems": [
    "Verif.Props.c140_sizes",
    "Verif.Props.c140_components",
    "Verif.Props.c140_labels",
    "Verif.Props.c140_bfs",
    "Verif.Props.c140_reorder"
   ],
   "note": "for reorder_id the two directions of an undirected edge must show the same label; raw label ids can make them differ (C65)"
  },
  {
   "property": "C141",
   "status": "proved",
   "theorems": [
    "Verif.Props.c141_gnm_uniform",
    "Verif.Props.c141_gnp_independent",
    "Verif.Props.c141_complete_labels",
    "Verif.Props.c141_gnm_labels"
   ],
   "note": "that the draws of rand are themselves equally likely and independent is assumed of the crate; rand's sample_iter is modelled from rand 0.5; labels: lists without repetition that fit the label id type"
  },
  {
   "property": "C142",
   "status": "proved",
   "theorems": [
    "Verif.Props.c142_no_panic",
    "Verif.Props.c142_same",
    "Verif.Props.c142_any_order",
    "Verif.Props.c142_csv_rows"
   ],
   "note": "histories with label ids written directly are left out; CSV with a header line"
  },
  {
   "property": "C143",
   "status": "proved",
   "theorems": [
    "Verif.Props.c143_add_remove_edge",
    "Verif.Props.c143_remove_add_edge",
    "Verif.Props.c143_add_remove_node",
    "Verif.Props.c143_remove_add_node",
    "Verif.Props.c143_relabel_node",
    "Verif.Props.c143_relabel_edge"
   ],
   "note": "that update_edge_label counts an edge again is the defect of C12 and C60"
  },
  {
   "property": "C144",
   "status": "proved",
   "theorems": [
    "Verif.Props.c144_graph_map",
    "Verif.Props.c144_static",
    "Verif.Props.c144_dump"
   ],
   "note": "creating a file counts as one unit of room"
  },
  {
   "property": "C145",
   "status": "proved",
   "theorems": [
    "Verif.Props.c145_again",
    "Verif.Props.c145_csv"
   ],
   "note": "that edge_count grows is the defect of C12 and C60; label tables that outgrow the label ids are left out of 'no answer' (C83)"
  },
  {
   "property": "C146",
   "status": "proved",
   "theorems": [
    "Verif.Props.c146_write_read",
    "Verif.Props.c146_labels",
    "Verif.Props.c146_static_to_csv",
    "Verif.Props.c146_round",
    "Verif.Props.c146_lost"
   ],
   "note": ""
  },
  {
   "property": "C147",
   "status": "proved",
   "theorems": [
    "Verif.Props.c147_bfs_restart",
    "Verif.Props.c147_dfs_restart",
    "Verif.Props.c147_total",
    "Verif.Props.c147_most",
    "Verif.Props.c147_dense",
    "Verif.Props.c147_edgeless",
    "Verif.Props.c147_small",
    "Verif.Props.c147_largest"
   ],
   "note": "the cost counts calls of has_node, not the scan over the words of the bit set"
  },
  {
   "property": "C148",
   "status": "proved",
   "theorems": [
    "Verif.Props.c148_step",
    "Verif.Props.c148_joins",
    "Verif.Props.c148_forest",
    "Verif.Props.c148_graph",
    "Verif.Props.c148_add_edge",
    "Verif.Props.c148_remove_edge",
    "Verif.Props.c148_add_node"
   ],
   "note": ""
  },
  {
   "property": "C149",
   "status": "proved",
   "theorems": [
    "Verif.Props.c149_node_ids",
    "Verif.Props.c149_edge_ids",
    "Verif.Props.c149_labels",
    "Verif.Props.c149_edge_labels",
    "Verif.Props.c149_later"
   ],
   "note": ""
  },
  {
   "property": "C150",
   "status": "proved",
   "theorems": [
    "Verif.Props.c150_lengths",
    "Verif.Props.c150_any_order",
    "Verif.Props.c150_decimal",
    "Verif.Props.c150_unlabelled",
    "Verif.Props.c150_files"
   ],
   "note": ""
  },
  {
   "property": "C151",
   "status": "proved",
   "theorems": [
    "Verif.Props.c151_complete",
    "Verif.Props.c151_edgeless",
    "Verif.Props.c151_components",
    "Verif.Props.c151_generated"
   ],
   "note": ""
  },
  {
   "property": "C152",
   "status": "proved",
   "theorems": [
    "Verif.Props.c152_path",
    "Verif.Props.c152_directed",
    "Verif.Props.c152_undirected_dfs",
    "Verif.Props.c152_undirected_bfs",
    "Verif.Props.c152_components"
   ],
   "note": ""
  },
  {
   "property": "C153",
   "status": "proved",
   "theorems": [
    "Verif.Props.c153_connected",
    "Verif.Props.c153_count",
    "Verif.Props.c153_leaf"
   ],
   "note": ""
  },
  {
   "property": "C154",
   "status": "proved",
   "theorems": [
    "Verif.Props.c154_reachable",
    "Verif.Props.c154_from_new",
    "Verif.Props.c154_import",
    "Verif.Props.c154_go_on",
    "Verif.Props.c154_only_reordered",
    "Verif.Props.c154_each_needed"
   ],
   "note": ""
  },
  {
   "property": "C155",
   "status": "proved",
   "theorems": [
    "Verif.Props.c155_panics",
    "Verif.Props.c155_below",
    "Verif.Props.c155_proper",
    "Verif.Props.c155_new",
    "Verif.Props.c155_bfs",
    "Verif.Props.c155_dfs",
    "Verif.Props.c155_import",
    "Verif.Props.c155_forged"
   ],
   "note": ""
  },
  {
   "property": "C156",
   "status": "proved",
   "theorems": [
    "Verif.Props.c156_neighbors",
    "Verif.Props.c156_degree",
    "Verif.Props.c156_has_edge",
    "Verif.Props.c156_mapped_has_edge",
    "Verif.Props.c156_edge_label",
    "Verif.Props.c156_node_label",
    "Verif.Props.c156_edges",
    "Verif.Props.c156_no_offsets",
    "Verif.Props.c156_never_ends",
    "Verif.Props.c156_disagree",
    "Verif.Props.c156_endless"
   ],
   "note": ""
  },
  {
   "property": "C157",
   "status": "proved",
   "theorems": [
    "Verif.Props.c157_bfs",
    "Verif.Props.c157_dfs",
    "Verif.Props.c157_new",
    "Verif.Props.c157_frozen_bfs",
    "Verif.Props.c157_frozen_dfs",
    "Verif.Props.c157_frozen_order",
    "Verif.Props.c157_same_static",
    "Verif.Props.c157_same_mapped"
   ],
   "note": ""
  },
  {
   "property": "C158",
   "status": "proved",
   "theorems": [
    "Verif.Props.c158_components",
    "Verif.Props.c158_same",
    "Verif.Props.c158_frozen",
    "Verif.Props.c158_lopsided"
   ],
   "note": ""
  },
  {
   "property": "C159",
   "status": "proved",
   "theorems": [
    "Verif.Props.c159_union",
    "Verif.Props.c159_clone",
    "Verif.Props.c159_minus",
    "Verif.Props.c159_frozen",
    "Verif.Props.c159_halfNamed"
   ],
   "note": ""
  },
  {
   "property": "C160",
   "status": "proved",
   "theorems": [
    "Verif.Props.c160_frozen",
    "Verif.Props.c160_cases"
   ],
   "note": ""
  },
  {
   "property": "C161",
   "status": "proved",
   "theorems": [
    "Verif.Props.c161_forgets",
    "Verif.Props.c161_keeps",
    "Verif.Props.c161_gap"
   ],
   "note": ""
  },
  {
   "property": "C162",
   "status": "proved",
   "theorems": [
    "Verif.Props.c162_zips",
    "Verif.Props.c162_ends",
    "Verif.Props.c162_round",
    "Verif.Props.c162_directed",
    "Verif.Props.c162_twice",
    "Verif.Props.c162_stuck",
    "Verif.Props.c162_more_fuel",
    "Verif.Props.c162_unseen"
   ],
   "note": ""
  },
  {
   "property": "C163",
   "status": "proved",
   "theorems": [
    "Verif.Props.c163_decimal",
    "Verif.Props.c163_number",
    "Verif.Props.c163_extends",
    "Verif.Props.c163_same_files",
    "Verif.Props.c163_round_trip"
   ],
   "note": "the two versions of the csv crate's integer fields are modelled from its documentation and known source"
  },
  {
   "property": "C164",
   "status": "proved",
   "theorems": [
    "Verif.Props.c164_utf8",
    "Verif.Props.c164_unique",
    "Verif.Props.c164_kept",
    "Verif.Props.c164_append"
   ],
   "note": ""
  },
  {
   "property": "C165",
   "status": "proved",
   "theorems": [
    "Verif.Props.c165_same",
    "Verif.Props.c165_read",
    "Verif.Props.c165_file",
    "Verif.Props.c165_separator",
    "Verif.Props.c165_skips",
    "Verif.Props.c165_header",
    "Verif.Props.c165_plain",
    "Verif.Props.c165_round_trip",
    "Verif.Props.c165_graph_map",
    "Verif.Props.c165_examples"
   ],
   "note": ""
  },
  {
   "property": "C166",
   "status": "proved",
   "theorems": [
    "Verif.Props.c166_string",
    "Verif.Props.c166_put",
    "Verif.Props.c166_round",
    "Verif.Props.c166_table",
    "Verif.Props.c166_table_put",
    "Verif.Props.c166_graph_bytes",
    "Verif.Props.c166_static_bytes",
    "Verif.Props.c166_aux_bytes",
    "Verif.Props.c166_graph",
    "Verif.Props.c166_static",
    "Verif.Props.c166_aux",
    "Verif.Props.c166_import",
    "Verif.Props.c166_import_static",
    "Verif.Props.c166_refused"
   ],
   "note": ""
  },
  {
   "property": "C167",
   "status": "proved",
   "theorems": [
    "Verif.Props.c167_apply",
    "Verif.Props.c167_exec",
    "Verif.Props.c167_add_node",
    "Verif.Props.c167_add_edge",
    "Verif.Props.c167_remove_node",
    "Verif.Props.c167_remove_edge",
    "Verif.Props.c167_update_node",
    "Verif.Props.c167_update_edge",
    "Verif.Props.c167_add_node_label",
    "Verif.Props.c167_add_edge_label",
    "Verif.Props.c167_view",
    "Verif.Props.c167_static_view",
    "Verif.Props.c167_node_label",
    "Verif.Props.c167_edge_label",
    "Verif.Props.c167_equal",
    "Verif.Props.c167_typed_eq",
    "Verif.Props.c167_union",
    "Verif.Props.c167_minus",
    "Verif.Props.c167_clone",
    "Verif.Props.c167_reorder_with",
    "Verif.Props.c167_reorder",
    "Verif.Props.c167_freeze",
    "Verif.Props.c167_collapse"
   ],
   "note": ""
  },
  {
   "property": "C168",
   "status": "proved",
   "theorems": [
    "Verif.Props.c168_queries",
    "Verif.Props.c168_add_node",
    "Verif.Props.c168_add_edge",
    "Verif.Props.c168_remove_node",
    "Verif.Props.c168_remove_edge",
    "Verif.Props.c168_update_node",
    "Verif.Props.c168_update_edge",
    "Verif.Props.c168_apply",
    "Verif.Props.c168_exec",
    "Verif.Props.c168_run",
    "Verif.Props.c168_reachable",
    "Verif.Props.c168_iso",
    "Verif.Props.c168_bfs",
    "Verif.Props.c168_dfs",
    "Verif.Props.c168_search",
    "Verif.Props.c168_counters",
    "Verif.Props.c168_equal",
    "Verif.Props.c168_union",
    "Verif.Props.c168_minus",
    "Verif.Props.c168_clone",
    "Verif.Props.c168_widen",
    "Verif.Props.c168_order"
   ],
   "note": ""
  },
  {
   "property": "C169",
   "status": "proved",
   "theorems": [
    "Verif.Props.c169_queries",
    "Verif.Props.c169_add_node",
    "Verif.Props.c169_add_edge",
    "Verif.Props.c169_remove_node",
    "Verif.Props.c169_remove_edge",
    "Verif.Props.c169_update_node",
    "Verif.Props.c169_update_edge",
    "Verif.Props.c169_apply",
    "Verif.Props.c169_exec",
    "Verif.Props.c169_run",
    "Verif.Props.c169_abs",
    "Verif.Props.c169_reachable",
    "Verif.Props.c169_equal",
    "Verif.Props.c169_overrun"
   ],
   "note": ""
  },
  {
   "property": "C170",
   "status": "proved",
   "theorems": [
    "Verif.Props.c170_records",
    "Verif.Props.c170_text",
    "Verif.Props.c170_needed",
    "Verif.Props.c170_labels",
    "Verif.Props.c170_strings",
    "Verif.Props.c170_init",
    "Verif.Props.c170_refused"
   ],
   "note": "The csv crate's StringRecord check put in for the free UTF-8 parameter of the LDBC model."
  },
  {
   "property": "C171",
   "status": "proved",
   "theorems": [
    "Verif.Props.c171_any",
    "Verif.Props.c171_order",
    "Verif.Props.c171_heads",
    "Verif.Props.c171_frozen",
    "Verif.Props.c171_lopsided",
    "Verif.Props.c171_parts"
   ],
   "note": ""
  },
  {
   "property": "C172",
   "status": "proved",
   "theorems": [
    "Verif.Props.c172_reassemble",
    "Verif.Props.c172_again"
   ],
   "note": "Isolated nodes make ConnSubgraph::new panic (C39)."
  },
  {
   "property": "C173",
   "status": "proved",
   "theorems": [
    "Verif.Props.c173_loads",
    "Verif.Props.c173_same",
    "Verif.Props.c173_moved"
   ],
   "note": ""
  },
  {
   "property": "C174",
   "status": "proved",
   "theorems": [
    "Verif.Props.c174_queries",
    "Verif.Props.c174_freeze",
    "Verif.Props.c174_room",
    "Verif.Props.c174_limits"
   ],
   "note": ""
  },
  {
   "property": "C175",
   "status": "proved",
   "theorems": [
    "Verif.Props.c175_length",
    "Verif.Props.c175_right_iff",
    "Verif.Props.c175_narrow",
    "Verif.Props.c175_wide",
    "Verif.Props.c175_loads",
    "Verif.Props.c175_narrow_answers",
    "Verif.Props.c175_wide_panics",
    "Verif.Props.c175_misread"
   ],
   "note": ""
  },
  {
   "property": "C176",
   "status": "proved",
   "theorems": [
    "Verif.Props.c176_equal",
    "Verif.Props.c176_typed",
    "Verif.Props.c176_self",
    "Verif.Props.c176_trans",
    "Verif.Props.c176_node_counter",
    "Verif.Props.c176_edge_counter",
    "Verif.Props.c176_id_counters",
    "Verif.Props.c176_hash",
    "Verif.Props.c176_frozen",
    "Verif.Props.c176_odd"
   ],
   "note": ""
  },
  {
   "property": "C177",
   "status": "proved",
   "theorems": [
    "Verif.Props.c177_panics",
    "Verif.Props.c177_reads",
    "Verif.Props.c177_clone",
    "Verif.Props.c177_odd"
   ],
   "note": ""
  },
  {
   "property": "C178",
   "status": "proved",
   "theorems": [
    "Verif.Props.c178_reaches",
    "Verif.Props.c178_unique",
    "Verif.Props.c178_loop",
    "Verif.Props.c178_list",
    "Verif.Props.c178_endless",
    "Verif.Props.c178_view",
    "Verif.Props.c178_mapped_view",
    "Verif.Props.c178_equal",
    "Verif.Props.c178_never_equal",
    "Verif.Props.c178_lazy"
   ],
   "note": ""
  },
  {
   "property": "C179",
   "status": "proved",
   "theorems": [
    "Verif.Props.c179_gets_to",
    "Verif.Props.c179_loop",
    "Verif.Props.c179_stuck",
    "Verif.Props.c179_edges",
    "Verif.Props.c179_sorted",
    "Verif.Props.c179_rows"
   ],
   "note": ""
  },
  {
   "property": "C180",
   "status": "proved",
   "theorems": [
    "Verif.Props.c180_search",
    "Verif.Props.c180_has_edge",
    "Verif.Props.c180_mapped_has_edge",
    "Verif.Props.c180_most",
    "Verif.Props.c180_doubled"
   ],
   "note": ""
  },
  {
   "property": "C181",
   "status": "proved",
   "theorems": [
    "Verif.Props.c181_run",
    "Verif.Props.c181_frozen",
    "Verif.Props.c181_mapped",
    "Verif.Props.c181_again",
    "Verif.Props.c181_stuck",
    "Verif.Props.c181_view",
    "Verif.Props.c181_torn"
   ],
   "note": ""
  },
  {
   "property": "C182",
   "status": "proved",
   "theorems": [
    "Verif.Props.c182_compose",
    "Verif.Props.c182_undo",
    "Verif.Props.c182_identity",
    "Verif.Props.c182_lost",
    "Verif.Props.c182_max",
    "Verif.Props.c182_dropped"
   ],
   "note": ""
  },
  {
   "property": "C183",
   "status": "proved",
   "theorems": [
    "Verif.Props.c183_same",
    "Verif.Props.c183_arrays",
    "Verif.Props.c183_loads",
    "Verif.Props.c183_narrow",
    "Verif.Props.c183_first",
    "Verif.Props.c183_wide",
    "Verif.Props.c183_misread"
   ],
   "note": ""
  },
  {
   "property": "C184",
   "status": "proved",
   "theorems": [
    "Verif.Props.c184_degrees",
    "Verif.Props.c184_again",
    "Verif.Props.c184_node_labels",
    "Verif.Props.c184_edge_labels",
    "Verif.Props.c184_labels_again",
    "Verif.Props.c184_edges_again",
    "Verif.Props.c184_fixed",
    "Verif.Props.c184_swap"
   ],
   "note": ""
  },
  {
   "property": "C185",
   "status": "proved",
   "theorems": [
    "Verif.Props.c185_gnm_has",
    "Verif.Props.c185_gnp_has",
    "Verif.Props.c185_gnm_edge",
    "Verif.Props.c185_gnp_edge",
    "Verif.Props.c185_gnm_degree",
    "Verif.Props.c185_gnp_degree",
    "Verif.Props.c185_gnp_edges"
   ],
   "note": ""
  },
  {
   "property": "C186",
   "status": "proved",
   "theorems": [
    "Verif.Props.c186_panics",
    "Verif.Props.c186_graph",
    "Verif.Props.c186_directed",
    "Verif.Props.c186_undirected",
    "Verif.Props.c186_results",
    "Verif.Props.c186_frozen",
    "Verif.Props.c186_components",
    "Verif.Props.c186_edges_mut"
   ],
   "note": ""
  },
  {
   "property": "C187",
   "status": "proved",
   "theorems": [
    "Verif.Props.c187_twice",
    "Verif.Props.c187_large",
    "Verif.Props.c187_fixed",
    "Verif.Props.c187_little",
    "Verif.Props.c187_open",
    "Verif.Props.c187_dump",
    "Verif.Props.c187_loads",
    "Verif.Props.c187_neighbors",
    "Verif.Props.c187_right",
    "Verif.Props.c187_has_edge",
    "Verif.Props.c187_edges",
    "Verif.Props.c187_nodes",
    "Verif.Props.c187_labels",
    "Verif.Props.c187_misread"
   ],
   "note": ""
  },
  {
   "property": "C188",
   "status": "proved",
   "theorems": [
    "Verif.Props.c188_part",
    "Verif.Props.c188_edges",
    "Verif.Props.c188_left",
    "Verif.Props.c188_nodes",
    "Verif.Props.c188_read",
    "Verif.Props.c188_whole",
    "Verif.Props.c188_mapped_whole",
    "Verif.Props.c188_labels",
    "Verif.Props.c188_mapped_labels",
    "Verif.Props.c188_frozen",
    "Verif.Props.c188_torn",
    "Verif.Props.c188_short_labels"
   ],
   "note": ""
  },
  {
   "property": "C189",
   "status": "proved",
   "theorems": [
    "Verif.Props.c189_relation",
    "Verif.Props.c189_kind",
    "Verif.Props.c189_edges",
    "Verif.Props.c189_nodes",
    "Verif.Props.c189_unread"
   ],
   "note": ""
  },
  {
   "property": "C190",
   "status": "proved",
   "theorems": [
    "Verif.Props.c190_agrees",
    "Verif.Props.c190_stays",
    "Verif.Props.c190_answers",
    "Verif.Props.c190_edge_indices",
    "Verif.Props.c190_panics",
    "Verif.Props.c190_bfs",
    "Verif.Props.c190_dfs"
   ],
   "note": ""
  },
  {
   "property": "C191",
   "status": "proved",
   "theorems": [
    "Verif.Props.c191_bfs_agrees",
    "Verif.Props.c191_dfs_agrees",
    "Verif.Props.c191_bfs",
    "Verif.Props.c191_dfs",
    "Verif.Props.c191_frozen_bfs",
    "Verif.Props.c191_frozen_dfs",
    "Verif.Props.c191_mapped_bfs",
    "Verif.Props.c191_mapped_dfs",
    "Verif.Props.c191_healed_bfs",
    "Verif.Props.c191_healed_dfs",
    "Verif.Props.c191_loop_bfs",
    "Verif.Props.c191_loop_dfs"
   ],
   "note": ""
  },
  {
   "property": "C192",
   "status": "proved",
   "theorems": [
    "Verif.Props.c192_equal_refl",
    "Verif.Props.c192_equal_trans",
    "Verif.Props.c192_equal_symm_iff",
    "Verif.Props.c192_equal_symm",
    "Verif.Props.c192_equal_both",
    "Verif.Props.c192_keys",
    "Verif.Props.c192_eq_refl",
    "Verif.Props.c192_eq_trans",
    "Verif.Props.c192_eq_both",
    "Verif.Props.c192_not_symmetric"
   ],
   "note": ""
  },
  {
   "property": "C193",
   "status": "proved",
   "theorems": [
    "Verif.Props.c193_agrees",
    "Verif.Props.c193_searches",
    "Verif.Props.c193_most"
   ],
   "note": ""
  },
  {
   "property": "C194",
   "status": "proved",
   "theorems": [
    "Verif.Props.c194_agrees",
    "Verif.Props.c194_answers",
    "Verif.Props.c194_edges",
    "Verif.Props.c194_graph",
    "Verif.Props.c194_mapped",
    "Verif.Props.c194_late_panic"
   ],
   "note": ""
  },
  {
   "property": "C195",
   "status": "proved",
   "theorems": [
    "Verif.Props.c195_asked",
    "Verif.Props.c195_sum",
    "Verif.Props.c195_directed",
    "Verif.Props.c195_undirected",
    "Verif.Props.c195_default",
    "Verif.Props.c195_mapped_asked",
    "Verif.Props.c195_mapped",
    "Verif.Props.c195_short"
   ],
   "note": ""
  },
  {
   "property": "C196",
   "status": "proved",
   "theorems": [
    "Verif.Props.c196_asks",
    "Verif.Props.c196_agree",
    "Verif.Props.c196_sums",
    "Verif.Props.c196_determined",
    "Verif.Props.c196_frozen",
    "Verif.Props.c196_mapped",
    "Verif.Props.c196_unaware"
   ],
   "note": ""
  },
  {
   "property": "C197",
   "status": "proved",
   "theorems": [
    "Verif.Props.c197_graph",
    "Verif.Props.c197_ends",
    "Verif.Props.c197_stops",
    "Verif.Props.c197_order",
    "Verif.Props.c197_half"
   ],
   "note": ""
  },
  {
   "property": "C198",
   "status": "proved",
   "theorems": [
    "Verif.Props.c198_chain"
   ],
   "note": ""
  },
  {
   "property": "C199",
   "status": "proved",
   "theorems": [
    "Verif.Props.c199_figures",
    "Verif.Props.c199_chain",
    "Verif.Props.c199_mends"
   ],
   "note": ""
  },
  {
   "property": "C200",
   "status": "proved",
   "theorems": [
    "Verif.Props.c200_graphs",
    "Verif.Props.c200_removed",
    "Verif.Props.c200_varied"
   ],
   "note": ""
  }
 ]
}