{
 "claims": [
  {
   "property": "C01",
   "status": "proved",
   "theorems": [
    "TQ.C01_multiset_refinement"
   ],
   "note": ""
  },
  {
   "property": "C02",
   "status": "proved",
   "theorems": [
    "TQ.C02_queries_exact"
   ],
   "note": ""
  },
  {
   "property": "C03",
   "status": "proved",
   "theorems": [
    "TQ.C03_shape",
    "TQ.C03_no_assertion"
   ],
   "note": ""
  },
  {
   "property": "C04",
   "status": "proved",
   "theorems": [
    "TQ.C04_results"
   ],
   "note": ""
  },
  {
   "property": "C05",
   "status": "proved",
   "theorems": [
    "TQ.C05_nearest"
   ],
   "note": ""
  },
  {
   "property": "C06",
   "status": "partial",
   "theorems": [
    "TQ.C06_unsplit_partial",
    "TQ.C06_null_on_nonempty_violated",
    "TQ.C06_outside_ub_violated"
   ],
   "note": "The code violates the property: with the default container parameters and 101 items get_nearest returns null inside the extent (C06_null_on_nonempty_violated), and it dereferences null outside (C06_outside_ub_violated). The partial theorem covers trees that are not split."
  },
  {
   "property": "C07",
   "status": "partial",
   "theorems": [
    "TQ.C07_update_partial",
    "TQ.C07_update_border_violated",
    "TQ.C07_update_outside_ub_violated"
   ],
   "note": "The code violates the property when the new coordinate lies on the border of the item's cell (C07_update_border_violated). The partial theorem covers all other new coordinates."
  },
  {
   "property": "C08",
   "status": "proved",
   "theorems": [
    "TQ.C08_container_consistent"
   ],
   "note": ""
  },
  {
   "property": "C09",
   "status": "partial",
   "theorems": [
    "TQ.C09_predicate_unsplit_partial",
    "TQ.C09_predicate_dropped_violated",
    "TQ.C09_predicate_dropped_witness_violated"
   ],
   "note": "The code violates the property: on a split tree the user predicate is ignored. The partial theorem covers unsplit trees."
  },
  {
   "property": "C10",
   "status": "proved",
   "theorems": [
    "TQ.Flags.C10_bitwise",
    "TQ.Flags.C10_vertex_flags_independent",
    "TQ.Flags.C10_edge_flags_independent"
   ],
   "note": ""
  },
  {
   "property": "C11",
   "status": "proved",
   "theorems": [
    "TQ.C11_orientation_spec",
    "TQ.C11_orientation_laws",
    "TQ.C11_is_left_lefton"
   ],
   "note": "exact arithmetic over any ordered field, tolerance as parameter"
  },
  {
   "property": "C12",
   "status": "proved",
   "theorems": [
    "TQ.C12_symmetric",
    "TQ.C12_crossing_iff",
    "TQ.C12_adjacent_never_cross",
    "TQ.C12_facets",
    "TQ.C12_facets_symmetric"
   ],
   "note": "exact arithmetic over any ordered field; completeness outside the tolerance band"
  },
  {
   "property": "C13",
   "status": "proved",
   "theorems": [
    "TQ.C13_in_on_triangle_complete",
    "TQ.C13_in_triangle_sound",
    "TQ.C13_in_on_quad_complete",
    "TQ.C13_in_quad_sound",
    "TQ.C13_rect"
   ],
   "note": "exact arithmetic over any ordered field"
  },
  {
   "property": "C14",
   "status": "proved",
   "theorems": [
    "TQ.C14_distance_minimal",
    "TQ.C14_distance_symmetric"
   ],
   "note": "exact arithmetic over any ordered field"
  },
  {
   "property": "C15",
   "status": "proved",
   "theorems": [
    "TQ.C15_fan",
    "TQ.C15_laws"
   ],
   "note": "exact arithmetic over any ordered field, all polygon sizes"
  },
  {
   "property": "C16",
   "status": "proved",
   "theorems": [
    "TQ.C16_mod",
    "TQ.C16_clamp",
    "TQ.C16_argsort",
    "TQ.C16_argsort_unique"
   ],
   "note": ""
  },
  {
   "property": "C17",
   "status": "proved",
   "theorems": [
    "TQ.C17_chain",
    "TQ.C17_throws"
   ],
   "note": "Base class EdgeList::add_edge; the derived Boundary::add_edge bypasses the check, see C83."
  },
  {
   "property": "C18",
   "status": "proved",
   "theorems": [
    "TQ.C18_shape",
    "TQ.C18_progress"
   ],
   "note": ""
  },
  {
   "property": "C19",
   "status": "partial",
   "theorems": [
    "TQ.C19_markers_violated",
    "TQ.C19_markers_partial"
   ],
   "note": "The code violates the full statement when the input orientation is reversed (markers shift by one); the partial theorem covers inputs that already have the stored orientation."
  },
  {
   "property": "C20",
   "status": "proved",
   "theorems": [
    "TQ.C20_boundary_area",
    "TQ.C20_edgelist_area",
    "TQ.C20_domain_area"
   ],
   "note": ""
  },
  {
   "property": "C21",
   "status": "partial",
   "theorems": [
    "TQ.C21_split_loop",
    "TQ.C21_split_area_partial",
    "TQ.C21_split_area_violated"
   ],
   "note": "Loop part proved; the area part is violated by the code (stored area becomes stale)."
  },
  {
   "property": "C22",
   "status": "partial",
   "theorems": [
    "TQ.C22_split_position_violated",
    "TQ.C22_split_position_partial"
   ],
   "note": "The code violates the documented position (mirrored parameter)."
  },
  {
   "property": "C23",
   "status": "proved",
   "theorems": [
    "TQ.C23_domain_inside",
    "TQ.C23_inside_reorder",
    "TQ.C23_outside_box"
   ],
   "note": ""
  },
  {
   "property": "C24",
   "status": "partial",
   "theorems": [
    "TQ.C24_left_side_violated",
    "TQ.C24_on_edge_partial"
   ],
   "note": "The code violates the full statement (points on the left edge)."
  },
  {
   "property": "C25",
   "status": "partial",
   "theorems": [
    "TQ.C25_extent_violated",
    "TQ.C25_extent_partial"
   ],
   "note": "The code violates the full statement: the extent always contains the origin."
  },
  {
   "property": "C26",
   "status": "partial",
   "theorems": [
    "TQ.C26_no_false_alarm_partial",
    "TQ.C26_missed_violated"
   ],
   "note": "No false alarm proved; completeness is violated by the code."
  },
  {
   "property": "C27",
   "status": "proved",
   "theorems": [
    "TQ.C27_size_bounds",
    "TQ.C27_local_sizes"
   ],
   "note": "exp is any function with values in [0,1] on non-positive arguments and value 1 at 0."
  },
  {
   "property": "C28",
   "status": "partial",
   "theorems": [
    "TQ.C28_export",
    "TQ.C28_grid",
    "TQ.C28_overflow_violated"
   ],
   "note": "Proved whenever Nx*Ny fits 32 bits, including the sample points; violated beyond (overflow of the product)."
  },
  {
   "property": "C29",
   "status": "proved",
   "theorems": [
    "TQ.C29_front_data"
   ],
   "note": "exact arithmetic over any ordered field"
  },
  {
   "property": "C30",
   "status": "proved",
   "theorems": [
    "TQ.C30_front_balanced"
   ],
   "note": "exact arithmetic over any ordered field"
  },
  {
   "property": "C31",
   "status": "partial",
   "theorems": [
    "TQ.C31_partition_partial",
    "TQ.C31_graded_partial",
    "TQ.C31_debug_checks",
    "TQ.C31_graded_checks",
    "TQ.C31_constant_size",
    "TQ.C31_sub_edges",
    "TQ.C31_partition_violated"
   ],
   "note": "The code violates the partition for jumping size functions; proved for sizes that vary by less than the factor 3/2 along the edge, for sizes that change by at most a fifth of the distance (C31_graded_partial, any overall variation), and for constant ones."
  },
  {
   "property": "C32",
   "status": "proved",
   "theorems": [
    "TQ.C32_terminates",
    "TQ.C32_terminates_archimedean"
   ],
   "note": "explicit iteration bound"
  },
  {
   "property": "C33",
   "status": "proved",
   "theorems": [
    "TQ.C33_sort",
    "TQ.C33_base_next"
   ],
   "note": ""
  },
  {
   "property": "C34",
   "status": "proved",
   "theorems": [
    "TQ.C34_area_conserved",
    "TQ.C34_area_is_sum"
   ],
   "note": "Histories in which the side edges taken from the front run against the new triangle (hypothesis AllOriented; C36_balance_violated shows that the code does not ensure it on fronts with slits). C34_area_is_sum needs no orientation. C140 discharges the hypothesis for simple fronts, see C142."
  },
  {
   "property": "C35",
   "status": "proved",
   "theorems": [
    "TQ.C35_chain",
    "TQ.C35_complete"
   ],
   "note": "Histories in which the side edges taken from the front run against the new triangle (hypothesis AllOriented; C36_balance_violated shows that the code does not ensure it on fronts with slits). C140 discharges the hypothesis for simple fronts, see C142."
  },
  {
   "property": "C36",
   "status": "partial",
   "theorems": [
    "TQ.C36_balance_violated",
    "TQ.C36_balance_partial"
   ],
   "note": "The code violates it: undirected lookup on a front with two slits takes the wrong edge. Proved when the looked-up edges run against the new triangle. C140 ensures that for simple fronts."
  },
  {
   "property": "C37",
   "status": "proved",
   "theorems": [
    "TQ.C37_sides_counted",
    "TQ.C37_complete",
    "TQ.C37_one_interior_edge"
   ],
   "note": "All histories whose initial front has no ghost edges (none are created, see the model of prepare_mesh); no orientation hypothesis."
  },
  {
   "property": "C38",
   "status": "proved",
   "theorems": [
    "TQ.C38_best_triangle"
   ],
   "note": "Container queries and std::sort are parameters with their specification as hypotheses."
  },
  {
   "property": "C39",
   "status": "proved",
   "theorems": [
    "TQ.C39_failed_update"
   ],
   "note": ""
  },
  {
   "property": "C40",
   "status": "partial",
   "theorems": [
    "TQ.C40_on_front_violated",
    "TQ.C40_step_partial",
    "TQ.C40_front_flagged_partial"
   ],
   "note": "The code violates it: the vertices of the base edge keep the flag when their last front edge is used up. Proved: vertices with a front edge always carry the flag; exact flags after one step."
  },
  {
   "property": "C41",
   "status": "proved",
   "theorems": [
    "TQ.C41_limit"
   ],
   "note": "The meshing part of generate_elements (advancing loop, then exhaustive fallback), whenever it returns; C42_two_passes bounds the attempts without success."
  },
  {
   "property": "C42",
   "status": "proved",
   "theorems": [
    "TQ.C42_all_tried",
    "TQ.C42_two_passes",
    "TQ.C42_exhaustive"
   ],
   "note": "Record of attempts: false is returned only after a wide attempt with every edge of the final front; the first attempt of the first narrow pass is treated in C93."
  },
  {
   "property": "C43",
   "status": "proved",
   "theorems": [
    "TQ.C43_resume"
   ],
   "note": "The front collected from a mesh that was left by a meshing step consists of the remaining front edges (set equality, directions); clean-up between the steps (run only for meshes that pass check_mesh_validity) is not part of the statement."
  },
  {
   "property": "C44",
   "status": "partial",
   "theorems": [
    "TQ.C44_base_edges_partial",
    "TQ.C44_path_unique_partial",
    "TQ.C44_layer_partial",
    "TQ.C44_single_violated"
   ],
   "note": "Open layers with different start and end edge: the base edges are exactly the unique path. Violated when start and end edge coincide."
  },
  {
   "property": "C45",
   "status": "proved",
   "theorems": [
    "TQ.C45_heights",
    "TQ.C45_smooth",
    "TQ.C45_growth"
   ],
   "note": "Heights before and after smoothing, and growth."
  },
  {
   "property": "C46",
   "status": "partial",
   "theorems": [
    "TQ.C46_next_partial",
    "TQ.C46_next_violated",
    "TQ.C46_last_violated"
   ],
   "note": "Proved when a projected vertex on either side is flagged as front vertex. Violated: success is reported for an empty front, and the last inspected vertex is used when none is flagged."
  },
  {
   "property": "C47",
   "status": "proved",
   "theorems": [
    "TQ.C47_indices",
    "TQ.C47_bijection",
    "TQ.C47_export"
   ],
   "note": ""
  },
  {
   "property": "C48",
   "status": "proved",
   "theorems": [
    "TQ.C48_neighbours",
    "TQ.C48_symmetric",
    "TQ.C48_left_right",
    "TQ.C48_left_geometry"
   ],
   "note": "Under the stated hypotheses on unique directed sides; LeftFacets is derived from counter-clockwise shapes above the tolerance."
  },
  {
   "property": "C49",
   "status": "proved",
   "theorems": [
    "TQ.C49_edge_index",
    "TQ.C49_bijection"
   ],
   "note": ""
  },
  {
   "property": "C50",
   "status": "partial",
   "theorems": [
    "TQ.C50_triangles",
    "TQ.C50_quads_partial",
    "TQ.C50_quads_violated"
   ],
   "note": "The code violates the property for clear_double_quad_edges (witness); proved for clear_double_triangle_edges, and for the quads up to the first mark."
  },
  {
   "property": "C51",
   "status": "proved",
   "theorems": [
    "TQ.C51_merge"
   ],
   "note": "Every processing order; includes maximality of the merge."
  },
  {
   "property": "C52",
   "status": "partial",
   "theorems": [
    "TQ.C52_star_partial",
    "TQ.C52_selected",
    "TQ.C52_orientation_violated"
   ],
   "note": "Full result for triangles with areas above the tolerance of orientation; the code violates the property for smaller ones (witness)."
  },
  {
   "property": "C53",
   "status": "proved",
   "theorems": [
    "TQ.C53_merge",
    "TQ.C53_counts",
    "TQ.C53_colours",
    "TQ.C53_refused"
   ],
   "note": "for meshes with a common interface (Adjacent) and sound shapes; colours of elements are non-negative"
  },
  {
   "property": "C54",
   "status": "proved",
   "theorems": [
    "TQ.C54_geometry"
   ],
   "note": "points of elements, edges and vertices in list order"
  },
  {
   "property": "C55",
   "status": "partial",
   "theorems": [
    "TQ.C55_area_partial",
    "TQ.C55_violated"
   ],
   "note": "the code violates it: the stored area is not updated; the total area of the elements is the sum"
  },
  {
   "property": "C56",
   "status": "proved",
   "theorems": [
    "TQ.C56_refine",
    "TQ.C56_counts",
    "TQ.C56_refused",
    "TQ.C56_iterate",
    "TQ.C56_iterate_counts"
   ],
   "note": "refine yields exactly the described mesh (every triangle gives three, every quad four quads, every edge two), conforming and proper again; a mesh with twin edges is refused unchanged; the statement holds for any number of rounds."
  },
  {
   "property": "C57",
   "status": "proved",
   "theorems": [
    "TQ.C57_areas",
    "TQ.C57_convex",
    "TQ.C57_iterate"
   ],
   "note": "Areas of the sub-quads sum up to the area of each element, colour by colour; sub-quads of convex elements are convex; any number of rounds."
  },
  {
   "property": "C58",
   "status": "proved",
   "theorems": [
    "TQ.C58_smooth",
    "TQ.C58_mixed"
   ],
   "note": "Laplace, torsion and mixed smoothing; the displacement rule is arbitrary."
  },
  {
   "property": "C59",
   "status": "proved",
   "theorems": [
    "TQ.C59_smooth",
    "TQ.C59_mixed"
   ],
   "note": "Laplace, torsion and mixed smoothing; the displacement rule is arbitrary."
  },
  {
   "property": "C60",
   "status": "partial",
   "theorems": [
    "TQ.C60_half_partial",
    "TQ.C60_mixed_partial",
    "TQ.C60_violated"
   ],
   "note": "The code violates the property: one Laplace iteration makes a convex quad re-entrant because only two corners are checked. Proved: these two corners stay convex."
  },
  {
   "property": "C61",
   "status": "partial",
   "theorems": [
    "TQ.C61_unused",
    "TQ.C61_projection_partial",
    "TQ.C61_violated"
   ],
   "note": "The code violates the property: the directions read are always zero, the result does not depend on the directions at all. Proved: with a unit direction one turn would keep the height."
  },
  {
   "property": "C62",
   "status": "proved",
   "theorems": [
    "TQ.C62_factors",
    "TQ.C62_mixed",
    "TQ.C62_compose",
    "TQ.C62_laplace"
   ],
   "note": "Factors of all iterations in closed form; for Laplace smoothing also equality of the meshes."
  },
  {
   "property": "C63",
   "status": "proved",
   "theorems": [
    "TQ.C63_registry"
   ],
   "note": ""
  },
  {
   "property": "C64",
   "status": "partial",
   "theorems": [
    "TQ.C64_return_partial",
    "TQ.C64_adjacent_partial",
    "TQ.C64_return_violated"
   ],
   "note": "The code violates the property: true is returned although nothing was merged. Proved: what the returned value does mean; with a common interface the merge happens and the donor is removed."
  },
  {
   "property": "C65",
   "status": "proved",
   "theorems": [
    "TQ.C65_accessor",
    "TQ.C65_groups"
   ],
   "note": ""
  },
  {
   "property": "C66",
   "status": "proved",
   "theorems": [
    "TQ.C66_read_back",
    "TQ.C66_data",
    "TQ.C66_offsets"
   ],
   "note": "Default (six digit) output of doubles in the data arrays is a parameter that prints words; coordinates are rational numbers, so the sign of a negative zero is not modelled."
  },
  {
   "property": "C67",
   "status": "proved",
   "theorems": [
    "TQ.C67_entries",
    "TQ.C67_layout"
   ],
   "note": ""
  },
  {
   "property": "C68",
   "status": "partial",
   "theorems": [
    "TQ.C68_distinct_partial",
    "TQ.C68_distinct_violated"
   ],
   "note": "The code violates the property: five decimals."
  },
  {
   "property": "C69",
   "status": "partial",
   "theorems": [
    "TQ.C69_extension_partial",
    "TQ.C69_idempotent",
    "TQ.C69_bare_violated"
   ],
   "note": "The code violates the property for a name that is the bare extension."
  },
  {
   "property": "C70",
   "status": "proved",
   "theorems": [
    "TQ.C70_enumerate",
    "TQ.C70_hits",
    "TQ.C70_position",
    "TQ.C70_behind_end"
   ],
   "note": ""
  },
  {
   "property": "C71",
   "status": "proved",
   "theorems": [
    "TQ.C71_blocks",
    "TQ.C71_disjoint",
    "TQ.C71_unique",
    "TQ.C71_wellformed",
    "TQ.C71_parameters"
   ],
   "note": ""
  },
  {
   "property": "C72",
   "status": "proved",
   "theorems": [
    "TQ.C72_matrix"
   ],
   "note": ""
  },
  {
   "property": "C73",
   "status": "partial",
   "theorems": [
    "TQ.C73_violated",
    "TQ.C73_empty",
    "TQ.C73_partial"
   ],
   "note": "violated by the code: a definition without lines yields the first row of the previous definition"
  },
  {
   "property": "C74",
   "status": "partial",
   "theorems": [
    "TQ.C74_interior",
    "TQ.C74_exterior_violated",
    "TQ.C74_exterior_partial"
   ],
   "note": "holds for interior boundaries and fixed edges; violated by the code for exterior boundaries"
  },
  {
   "property": "C75",
   "status": "partial",
   "theorems": [
    "TQ.Vec.C75_componentwise",
    "TQ.Vec.C75_vector_space",
    "TQ.Vec.C75_dot",
    "TQ.Vec.C75_cross3",
    "TQ.Vec.C75_eq_iff",
    "TQ.Vec.C75_sum_integral_partial",
    "TQ.Vec.C75_sum_violated"
   ],
   "note": "Component-wise laws, dot, cross, == proved; sum() violates the property (accumulates in int), proved for integral entries only."
  },
  {
   "property": "C76",
   "status": "partial",
   "theorems": [
    "TQ.C76_swap_violated",
    "TQ.C76_swap_partial"
   ],
   "note": "The code violates the property for matrices of different dimensions; exact condition proved."
  },
  {
   "property": "C77",
   "status": "proved",
   "theorems": [
    "TQ.C77_split_join",
    "TQ.C77_join_split",
    "TQ.C77_remove_empty"
   ],
   "note": ""
  },
  {
   "property": "C78",
   "status": "proved",
   "theorems": [
    "TQ.C78_line",
    "TQ.C78_file",
    "TQ.C78_round_trip"
   ],
   "note": ""
  },
  {
   "property": "C79",
   "status": "proved",
   "theorems": [
    "TQ.C79_add",
    "TQ.C79_remove",
    "TQ.C79_refused"
   ],
   "note": ""
  },
  {
   "property": "C80",
   "status": "proved",
   "theorems": [
    "TQ.C80_circumcenter",
    "TQ.C80_quad_area"
   ],
   "note": ""
  },
  {
   "property": "C81",
   "status": "proved",
   "theorems": [
    "TQ.C81_failed_preparation",
    "TQ.C81_cleanup_violated"
   ],
   "note": "The undefined behaviour of the dead clean-up loop is proved separately."
  },
  {
   "property": "C82",
   "status": "proved",
   "theorems": [
    "TQ.C82_incidence",
    "TQ.C82_no_dangling"
   ],
   "note": "Histories as the inductive predicate MeshSpec.Built."
  },
  {
   "property": "C83",
   "status": "partial",
   "theorems": [
    "TQ.C83_boundary_chain_violated",
    "TQ.C83_boundary_chain_partial"
   ],
   "note": "The code violates the full statement."
  },
  {
   "property": "C84",
   "status": "proved",
   "theorems": [
    "TQ.C84_overlaps"
   ],
   "note": ""
  },
  {
   "property": "C85",
   "status": "proved",
   "theorems": [
    "TQ.C85_neighbour_edges"
   ],
   "note": "edge length at least (eps/2)^(1/4)"
  },
  {
   "property": "C86",
   "status": "proved",
   "theorems": [
    "TQ.C86_front_area",
    "TQ.C86_front_area_polygons"
   ],
   "note": "for every size function for which the sub vertices lie on the segment line"
  },
  {
   "property": "C87",
   "status": "partial",
   "theorems": [
    "TQ.C87_boundary_flag_violated",
    "TQ.C87_boundary_flag_partial"
   ],
   "note": "The code violates the property for fixed interior edges."
  },
  {
   "property": "C88",
   "status": "partial",
   "theorems": [
    "TQ.C88_move_violated"
   ],
   "note": "The code violates the property for every non-empty front data."
  },
  {
   "property": "C89",
   "status": "partial",
   "theorems": [
    "TQ.C89_indexing",
    "TQ.C89_resize_partial",
    "TQ.C89_resize_violated"
   ],
   "note": "The code violates the property when resize changes the number of columns; exact behaviour proved otherwise."
  },
  {
   "property": "C90",
   "status": "proved",
   "theorems": [
    "TQ.C90_cover",
    "TQ.C90_tiling"
   ],
   "note": "Histories in which the side edges taken from the front run against the new triangle (hypothesis AllOriented; C36_balance_violated shows that the code does not ensure it on fronts with slits). Points on no line through a side (Generic). C140 discharges the hypothesis for simple fronts, see C142."
  },
  {
   "property": "C91",
   "status": "proved",
   "theorems": [
    "TQ.C91_no_vertex_inside"
   ],
   "note": "The length function is any upper bound of the Euclidean length."
  },
  {
   "property": "C92",
   "status": "partial",
   "theorems": [
    "TQ.C92_equilateral_violated",
    "TQ.C92_shape_range_partial",
    "TQ.C92_quality_limit"
   ],
   "note": "The code violates the documented value 1: every equilateral triangle gets 1/2. Proved: range (0,1/2], quality below the shape factor, and that a limit above 1/2 rejects every triangle."
  },
  {
   "property": "C93",
   "status": "partial",
   "theorems": [
    "TQ.C93_narrow_pass_violated",
    "TQ.C93_narrow_pass_partial"
   ],
   "note": "Violated by the code in the first pass (witness); the exact sequence of attempts is proved for all passes."
  },
  {
   "property": "C94",
   "status": "partial",
   "theorems": [
    "TQ.C94_complete_mesh_violated",
    "TQ.C94_complete_mesh_partial"
   ],
   "note": "Violated by the code for every empty front; proved for the exhaustive variant and for non-empty fronts."
  },
  {
   "property": "C95",
   "status": "partial",
   "theorems": [
    "TQ.C95_exhaustive_violated",
    "TQ.C95_exhaustive_partial"
   ],
   "note": "Violated by the code (square with a hole); proved: every vertex on the loop of the base edge is tried."
  },
  {
   "property": "C96",
   "status": "partial",
   "theorems": [
    "TQ.C96_check_partial",
    "TQ.C96_open_violated"
   ],
   "note": "The code violates the property (witness); exact meaning of the check proved."
  },
  {
   "property": "C97",
   "status": "partial",
   "theorems": [
    "TQ.C97_degree_partial",
    "TQ.C97_fixed_violated"
   ],
   "note": "The code violates the property (witness); proved for merge_degenerate_triangles."
  },
  {
   "property": "C98",
   "status": "partial",
   "theorems": [
    "TQ.C98_degree_partial",
    "TQ.C98_colour_violated"
   ],
   "note": "The code violates the property (witness); proved for merge_degenerate_triangles."
  },
  {
   "property": "C99",
   "status": "partial",
   "theorems": [
    "TQ.C99_pointers_partial",
    "TQ.C99_stale_violated"
   ],
   "note": "The code violates the property (witness); proved if open sides have null pointers before."
  },
  {
   "property": "C100",
   "status": "partial",
   "theorems": [
    "TQ.C100_merge_partial",
    "TQ.C100_active_violated"
   ],
   "note": "The code violates the property (witness); proved for the merge of triangles."
  },
  {
   "property": "C101",
   "status": "partial",
   "theorems": [
    "TQ.C101_convex_partial",
    "TQ.C101_convex_violated"
   ],
   "note": "The code violates the property (witness); two of the four angles proved."
  },
  {
   "property": "C102",
   "status": "partial",
   "theorems": [
    "TQ.C102_flags_partial",
    "TQ.C102_fixed_violated"
   ],
   "note": "The code violates it: witness with one fixed vertex. Partial theorem gives the exact flags."
  },
  {
   "property": "C103",
   "status": "proved",
   "theorems": [
    "TQ.C103_conforming"
   ],
   "note": ""
  },
  {
   "property": "C104",
   "status": "proved",
   "theorems": [
    "TQ.C104_flags"
   ],
   "note": ""
  },
  {
   "property": "C105",
   "status": "proved",
   "theorems": [
    "TQ.C105_twins"
   ],
   "note": ""
  },
  {
   "property": "C106",
   "status": "partial",
   "theorems": [
    "TQ.C106_donor_partial",
    "TQ.C106_violated"
   ],
   "note": "the code violates it for an unmeshed receiver; unmeshed donors are refused"
  },
  {
   "property": "C107",
   "status": "proved",
   "theorems": [
    "TQ.C107_area",
    "TQ.C107_same"
   ],
   "note": ""
  },
  {
   "property": "C108",
   "status": "proved",
   "theorems": [
    "TQ.C108_smooth",
    "TQ.C108_mixed"
   ],
   "note": ""
  },
  {
   "property": "C109",
   "status": "partial",
   "theorems": [
    "TQ.C109_mean_partial",
    "TQ.C109_violated"
   ],
   "note": "The code violates the property next to quads. Proved for interior vertices with triangles only."
  },
  {
   "property": "C110",
   "status": "partial",
   "theorems": [
    "TQ.C110_step_partial",
    "TQ.C110_distance_partial",
    "TQ.C110_violated"
   ],
   "note": "The code violates the property in every second iteration. Proved: exact contraction factor of one turn."
  },
  {
   "property": "C111",
   "status": "partial",
   "theorems": [
    "TQ.C111_drift",
    "TQ.C111_violated"
   ],
   "note": "The code violates the property; closed form of the drift for four neighbours."
  },
  {
   "property": "C112",
   "status": "partial",
   "theorems": [
    "TQ.C112_invalid_mesh_partial",
    "TQ.C112_dangling_violated"
   ],
   "note": "The code violates the property: the cached object of a destroyed mesh is returned. Proved: this is the only exception."
  },
  {
   "property": "C113",
   "status": "partial",
   "theorems": [
    "TQ.C113_domain_partial",
    "TQ.C113_stale_domain_violated"
   ],
   "note": "The code violates the property if the memory of a destroyed mesh is reused. Proved without reuse."
  },
  {
   "property": "C114",
   "status": "partial",
   "theorems": [
    "TQ.C114_prepared_partial",
    "TQ.C114_unprepared_violated"
   ],
   "note": "The code violates the property. Proved: if the preparation succeeds, the mesh is not empty."
  },
  {
   "property": "C115",
   "status": "proved",
   "theorems": [
    "TQ.C115_prepared",
    "TQ.C115_vertices"
   ],
   "note": ""
  },
  {
   "property": "C116",
   "status": "partial",
   "theorems": [
    "TQ.C116_ends_partial",
    "TQ.C116_lost_violated"
   ],
   "note": "The code violates the property: fixed edges are dropped. Proved: their end points are vertices of the mesh."
  },
  {
   "property": "C117",
   "status": "partial",
   "theorems": [
    "TQ.C117_tiles_simple_domain",
    "TQ.C117_tiles_domain_partial"
   ],
   "note": "C117_tiles_simple_domain needs no hypothesis on directions for a prepared boundary that is simple; tolerance below the resolution and ranges of the checks (C140) remain hypotheses on the run. C117_tiles_domain_partial assumes AllOriented instead."
  },
  {
   "property": "C118",
   "status": "proved",
   "theorems": [
    "TQ.C118_end_placed",
    "TQ.C118_factor"
   ],
   "note": "Norm and cosine are exact by hypothesis."
  },
  {
   "property": "C119",
   "status": "partial",
   "theorems": [
    "TQ.C119_tiling_partial",
    "TQ.C119_conserved_partial",
    "TQ.C119_conserved_violated"
   ],
   "note": "The code violates the full statement: C119_conserved_violated has a layer that moves a vertex of the neighbouring front edge and enlarges the domain from 9/2 to 37/8. C119_conserved_partial: proved for layers on partly meshed domains that move nothing and split only boundary edges, with tolerance below the resolution; C119_tiling_partial: the same law for well-formed meshes whose triangles have their base in the front and positive orientation."
  },
  {
   "property": "C120",
   "status": "partial",
   "theorems": [
    "TQ.C120_places_partial",
    "TQ.C120_places_violated"
   ],
   "note": "Proved under the hypothesis of C119. Violated: boundary vertices are moved."
  },
  {
   "property": "C121",
   "status": "partial",
   "theorems": [
    "TQ.C121_positive_partial",
    "TQ.C121_convex_violated"
   ],
   "note": "Positive areas under the hypothesis of C119. Convexity is violated."
  },
  {
   "property": "C122",
   "status": "partial",
   "theorems": [
    "TQ.C122_boundary_partial",
    "TQ.C122_hanging_violated"
   ],
   "note": "Boundary edges are split with the front edge. Violated for sides of elements of earlier layers."
  },
  {
   "property": "C123",
   "status": "partial",
   "theorems": [
    "TQ.C123_aspect_partial",
    "TQ.C123_aspect_violated"
   ],
   "note": "Proved at the ends of the layer (and before smoothing by C45). Violated after smoothing."
  },
  {
   "property": "C124",
   "status": "partial",
   "theorems": [
    "TQ.C124_ends_partial",
    "TQ.C124_null_violated"
   ],
   "note": "The search for the ends of a layer is safe on a closed front that is not empty. Violated when a layer fills the domain and another one is requested."
  },
  {
   "property": "C125",
   "status": "proved",
   "theorems": [
    "TQ.C125_read_back"
   ],
   "note": "Stale element pointers are excluded by a hypothesis."
  },
  {
   "property": "C126",
   "status": "proved",
   "theorems": [
    "TQ.C126_edges_once"
   ],
   "note": "Stale element pointers are excluded by a hypothesis."
  },
  {
   "property": "C127",
   "status": "partial",
   "theorems": [
    "TQ.C127_violated",
    "TQ.C127_violated_default",
    "TQ.C127_partial",
    "TQ.C72_matrix"
   ],
   "note": "violated by the code; proved for lines with as many entries as columns (without default values) and, in C72, for lines with at most as many (with default values)"
  },
  {
   "property": "C128",
   "status": "partial",
   "theorems": [
    "TQ.C128_violated",
    "TQ.C128_partial"
   ],
   "note": "violated by the code for definitions without default values; proved with default values"
  },
  {
   "property": "C129",
   "status": "partial",
   "theorems": [
    "TQ.C129_violated",
    "TQ.C132_scalar"
   ],
   "note": "violated by the code inside matrix definitions; for scalars the comment is cut off (C132)"
  },
  {
   "property": "C130",
   "status": "partial",
   "theorems": [
    "TQ.C130_violated"
   ],
   "note": "violated by the code for every blank line in a definition with default values"
  },
  {
   "property": "C131",
   "status": "partial",
   "theorems": [
    "TQ.C131_violated",
    "TQ.C131_partial"
   ],
   "note": "violated by the code; proved: places inside the matrix are distinct and no read leaves the storage"
  },
  {
   "property": "C132",
   "status": "proved",
   "theorems": [
    "TQ.C132_scalar",
    "TQ.C132_blanks_violated"
   ],
   "note": "text values with blanks are a recorded limitation (C132_blanks_violated)"
  },
  {
   "property": "C133",
   "status": "partial",
   "theorems": [
    "TQ.C133_violated",
    "TQ.C133_partial"
   ],
   "note": "violated by the code for found(); the flag returned by query is reliable"
  },
  {
   "property": "C134",
   "status": "proved",
   "theorems": [
    "TQ.C134_comments",
    "TQ.C134_counts"
   ],
   "note": ""
  },
  {
   "property": "C135",
   "status": "partial",
   "theorems": [
    "TQ.C135_violated",
    "TQ.C135_partial"
   ],
   "note": "violated by the code"
  },
  {
   "property": "C136",
   "status": "partial",
   "theorems": [
    "TQ.C136_violated",
    "TQ.C136_boundary_partial"
   ],
   "note": "violated by the code for fixed vertices; proved for the list of boundary vertices"
  },
  {
   "property": "C137",
   "status": "partial",
   "theorems": [
    "TQ.C137_run",
    "TQ.C137_violated"
   ],
   "note": "violated by the code for a definition without end line; proved for the definitions that are found"
  },
  {
   "property": "C138",
   "status": "partial",
   "theorems": [
    "TQ.C138_pick",
    "TQ.C138_violated"
   ],
   "note": "violated by the code; proved: the first definition that can be read is used"
  },
  {
   "property": "C139",
   "status": "proved",
   "theorems": [
    "TQ.C139_rectangle",
    "TQ.C139_square",
    "TQ.C139_circle",
    "TQ.C139_triangle",
    "TQ.C139_circle_few"
   ],
   "note": "Exact arithmetic; circle and triangle over the reals with the true sine and cosine. A circle with n < 3 is silently not created (C139_circle_few). That the nearest-vertex lookup answers is a hypothesis (see C06)."
  },
  {
   "property": "C140",
   "status": "proved",
   "theorems": [
    "TQ.C140_stays_simple",
    "TQ.C140_new_triangles_free",
    "TQ.C140_reach_of_size",
    "TQ.C140_long_edges_violated"
   ],
   "note": "For fronts meeting the stated conditions (simple, exact queries, tolerance below resolution, edges within the range of the checks). C140_reach_of_size gives a condition on edge lengths; C140_long_edges_violated shows that the range condition cannot be dropped."
  },
  {
   "property": "C141",
   "status": "proved",
   "theorems": [
    "TQ.C141_no_overlap"
   ],
   "note": "Under the conditions of C140."
  },
  {
   "property": "C142",
   "status": "proved",
   "theorems": [
    "TQ.C142_complete",
    "TQ.C142_area_conserved"
   ],
   "note": "Under the conditions of C140."
  },
  {
   "property": "C143",
   "status": "proved",
   "theorems": [
    "TQ.C143_session",
    "TQ.C143_domain"
   ],
   "note": "Bare start state (a prepared mesh, see prepared_bare), exact queries, tolerance below the resolution, reach condition of C140. The clean-up passes between generate_elements calls (clear_double_*_edges, merge_degenerate_triangles, C50-C52) are not part of a session."
  },
  {
   "property": "C144",
   "status": "proved",
   "theorems": [
    "TQ.C144_conforming_passes",
    "TQ.C144_session_passes"
   ],
   "note": ""
  },
  {
   "property": "C145",
   "status": "partial",
   "theorems": [
    "TQ.C145_far_violated",
    "TQ.C145_sound_partial",
    "TQ.C145_tiles_partial",
    "TQ.C145_area_partial",
    "TQ.C145_links_partial"
   ],
   "note": "The code violates the property (area threshold scaled with an extent that contains the origin); proved for meshes without stale pointers relative to their own boundary edges, together with the bound of the area difference and the pointers left by the check."
  },
  {
   "property": "C146",
   "status": "proved",
   "theorems": [
    "TQ.C146_triangle_angles"
   ],
   "note": "Over the real numbers; rounding may push the argument of acos out of [-1,1]."
  },
  {
   "property": "C147",
   "status": "partial",
   "theorems": [
    "TQ.C147_quad_angles_partial",
    "TQ.C147_bounded",
    "TQ.C147_reentrant_violated"
   ],
   "note": "The code violates it at re-entrant corners; exact characterisation of the quads for which it holds."
  },
  {
   "property": "C148",
   "status": "partial",
   "theorems": [
    "TQ.C148_quad_shape_partial",
    "TQ.C148_best_violated"
   ],
   "note": "The code violates it: best value 0.866; the rest is proved."
  },
  {
   "property": "C149",
   "status": "partial",
   "theorems": [
    "TQ.C149_quad_valid_partial",
    "TQ.C149_circle",
    "TQ.C149_bowtie_violated"
   ],
   "note": "The code violates it: crossed quads pass."
  },
  {
   "property": "C150",
   "status": "proved",
   "theorems": [
    "TQ.C150_work",
    "TQ.C150_domain"
   ],
   "note": "Sessions are the inductive predicate WholeSpec.Work; hypotheses: exact queries, tolerance below the resolution, checks reach far enough, nothing moved."
  },
  {
   "property": "C151",
   "status": "proved",
   "theorems": [
    "TQ.C151_work_passes"
   ],
   "note": "Same hypotheses as C150 and elements found left of their sides."
  },
  {
   "property": "C152",
   "status": "proved",
   "theorems": [
    "TQ.C152_double_quads",
    "TQ.C152_double_tris"
   ],
   "note": "Complete meshes with neighbour pointers as built (or refreshed); for pointers left over from removed elements see C99."
  },
  {
   "property": "C153",
   "status": "proved",
   "theorems": [
    "TQ.C153_improve",
    "TQ.C153_degenerate"
   ],
   "note": "Triangles larger than the tolerance (BigTris); neighbour pointers along boundary edges null."
  },
  {
   "property": "C154",
   "status": "proved",
   "theorems": [
    "TQ.C154_modify",
    "TQ.C154_steps"
   ],
   "note": "Facets found to the left of their sides (LeftFacets, follows from C48 for elements larger than the tolerance); visiting order arbitrary."
  },
  {
   "property": "C155",
   "status": "proved",
   "theorems": [
    "TQ.C155_session",
    "TQ.C155_improved",
    "TQ.C155_domain"
   ],
   "note": "Hypotheses as in C150 (simple boundary, resolution and range large enough)."
  },
  {
   "property": "C156",
   "status": "proved",
   "theorems": [
    "TQ.C156_triangles",
    "TQ.C156_triangles_mixed"
   ],
   "note": "For meshes of triangles; meshes with quads are C159."
  },
  {
   "property": "C157",
   "status": "proved",
   "theorems": [
    "TQ.C157_refine",
    "TQ.C157_iterate"
   ],
   "note": "Refinement is refused on meshes with interfaces (C56_refused)."
  },
  {
   "property": "C158",
   "status": "proved",
   "theorems": [
    "TQ.C158_processed",
    "TQ.C158_domain"
   ],
   "note": "Smoothing with quads under the assumption that it folds none (C159)."
  },
  {
   "property": "C159",
   "status": "partial",
   "theorems": [
    "TQ.C159_violated",
    "TQ.C159_smooth_partial",
    "TQ.C159_mixed_partial"
   ],
   "note": "The code violates it: C159_violated is a complete mesh with convex elements that one Laplace step with the default factor turns into overlapping elements. Proved: it holds when no quad is folded, and winding numbers add up in any case."
  },
  {
   "property": "C160",
   "status": "proved",
   "theorems": [
    "TQ.C160_complete",
    "TQ.C160_incomplete",
    "TQ.C160_defined",
    "TQ.C160_exhaustive",
    "TQ.C160_sized"
   ],
   "note": "Conditions: simple domain (Bare), tolerance below the resolution of the mesh and ranges of the checks large enough (MeshedWell; implied by edges of at most 4/3 of the size function, C160_sized). C160_defined: undefined behaviour only in the improvement of an unfinished mesh."
  },
  {
   "property": "C161",
   "status": "proved",
   "theorems": [
    "TQ.C161_application",
    "TQ.C161_triangles"
   ],
   "note": "For the first mesh definition (no merging with an earlier mesh). Conditions: layers as in C150, those of C160, convex elements before refinement, no quad folded by smoothing (the code can fold quads, C159; triangle meshes need no such condition)."
  },
  {
   "property": "C162",
   "status": "proved",
   "theorems": [
    "TQ.C162_merge",
    "TQ.C162_processed"
   ],
   "note": "Whole/UnionProps; hypothesis SideBySide (no common points, mutual links, edges off the interface meet in end points only)."
  },
  {
   "property": "C163",
   "status": "proved",
   "theorems": [
    "TQ.C163_next",
    "TQ.C163_merges",
    "TQ.C163_definitions"
   ],
   "note": "Whole/NextProps, example in Whole/NextExample (two squares); conditions as in C161 for every definition, Beside for the prepared mesh, RimKept for quad layers."
  },
  {
   "property": "C164",
   "status": "partial",
   "theorems": [
    "TQ.C164_interface_violated",
    "TQ.C164_links_partial",
    "TQ.C164_merged_partial"
   ],
   "note": "The code violates it: a quad layer whose first or last edge is next to an interface edge splits that edge into parts without links, the merge is refused and the assertion on the number of meshes aborts the run (C164_interface_violated). Proved: layers that split no interface edge keep all links and the merge gives a complete mesh."
  },
  {
   "property": "C165",
   "status": "proved",
   "theorems": [
    "TQ.C165_limited",
    "TQ.C165_limited_exhaustive",
    "TQ.C165_count",
    "TQ.C165_terminates",
    "TQ.C165_some_turns",
    "TQ.C165_same_result",
    "TQ.C165_triangulate",
    "TQ.C165_application",
    "TQ.C165_layer_walk",
    "TQ.C165_walk_any",
    "TQ.C165_all_layers",
    "TQ.C165_all_generated"
   ],
   "note": "Triangulation loops, quad layer walk, triangulate and generateMesh. Without limit under the conditions of C140 (tolerance below the resolution, ranges of the checks large enough) in the states that the loops pass through, and for fronts that enclose a region; with a limit without any condition on the geometry."
  },
  {
   "property": "C166",
   "status": "proved",
   "theorems": [
    "TQ.C166_work",
    "TQ.C166_triangulate"
   ],
   "note": "For sessions of layers as in C150 and triangulation steps under the conditions of C140."
  },
  {
   "property": "C167",
   "status": "partial",
   "theorems": [
    "TQ.C167_conforming",
    "TQ.C167_area_rim",
    "TQ.C167_area",
    "TQ.C167_area_near",
    "TQ.C167_tiles_partial",
    "TQ.C167_positive",
    "TQ.C167_application_partial",
    "TQ.C167_violated"
   ],
   "note": "Proved: the file can be read, is conforming, its rim is the boundary (C167_conforming); its area is the enclosed one (C167_area_rim, C167_area; C167_area_near in general); the cells tile the domain if they are counter-clockwise in the file (C167_tiles_partial), which holds if no triangle is so thin that rounding folds it (C167_positive); composed with runs of the application (C167_application_partial). The code violates the statement for thin elements: C167_violated is a complete mesh whose file has a clockwise, overlapping cell."
  },
  {
   "property": "C168",
   "status": "partial",
   "theorems": [
    "TQ.C168_fits_partial",
    "TQ.C168_mesh_partial",
    "TQ.C168_violated"
   ],
   "note": "Proved for all conforming meshes whose element centres are left of the sides, in particular for convex elements (C168_fits_partial, C168_mesh_partial). The code violates the statement for quads that are not convex: C168_violated is a complete mesh in whose file two interior edges are listed as FRONT."
  },
  {
   "property": "C169",
   "status": "partial",
   "theorems": [
    "TQ.C169_definition_partial",
    "TQ.C169_file_partial",
    "TQ.C169_unreadable_violated",
    "TQ.C169_twice_violated",
    "TQ.C169_blank_violated"
   ],
   "note": "The code violates it: values that cannot be read, repeated tables and empty lines in tables are not noticed (witnesses). Proved for well written files: every definition is read as written."
  },
  {
   "property": "C170",
   "status": "partial",
   "theorems": [
    "TQ.C170_pieces",
    "TQ.C170_simple",
    "TQ.C170_code_partial",
    "TQ.C170_graded_partial",
    "TQ.C170_mesh",
    "TQ.C170_simple_violated"
   ],
   "note": "C170_simple_violated: for a size function that jumps, the code divides a side at a point outside of it, so that the boundary of the mesh overlaps itself. Proved for all subdivisions at points between the ends in order (C170_pieces, C170_simple, C170_mesh); the subdivision of the code is of this kind if the sizes vary by less than the factor 3/2 (C170_code_partial) or change by at most a fifth of the distance (C170_graded_partial)."
  },
  {
   "property": "C171",
   "status": "proved",
   "theorems": [
    "TQ.C171_convex",
    "TQ.C171_domain",
    "TQ.C171_progress",
    "TQ.C171_rectangle",
    "TQ.C171_circle",
    "TQ.C171_mesh"
   ],
   "note": "C171_mesh is relative to a session of layers and steps that ends with an empty front (C160, C161) and to a subdivision as in C170."
  },
  {
   "property": "C172",
   "status": "partial",
   "theorems": [
    "TQ.C172_domain",
    "TQ.C172_table",
    "TQ.C172_progress_partial",
    "TQ.C172_prepared",
    "TQ.C172_extent_violated",
    "TQ.C172_circle_violated",
    "TQ.C172_index_violated"
   ],
   "note": "Proved for all definitions that draw a polygon with holes (Drawing), under the conditions of Constructible. The code violates the rest: shapes outside of the square given by the tables of vertices are undefined behaviour, circles with fewer than three corners leave an empty boundary without notice, and an index one too large for an exterior table is not reported."
  },
  {
   "property": "C173",
   "status": "proved",
   "theorems": [
    "TQ.C173_start",
    "TQ.C173_mesh",
    "TQ.C173_triangles"
   ],
   "note": "The first definition of a file. The run is taken to be good in the sense of GoodRun (conditions of C140, C150, C159, C161); C173_triangles needs the conditions on the triangulation only."
  },
  {
   "property": "C174",
   "status": "proved",
   "theorems": [
    "TQ.C174_size",
    "TQ.C174_divides",
    "TQ.C174_ends",
    "TQ.C174_start"
   ],
   "note": "Bounds of the size function of a domain (C174_size); the refinement divides every side properly (C174_divides) and ends (C174_ends) under the stated condition on the sizes; from the text of a file to the prepared mesh with this size function (C174_start). For sizes that jump see C31_partition_violated."
  },
  {
   "property": "C175",
   "status": "partial",
   "theorems": [
    "TQ.C175_vertices_partial",
    "TQ.C175_sizes_partial",
    "TQ.C175_sides",
    "TQ.C175_shared_violated"
   ],
   "note": "The code violates the statement for vertices at the same place: a corner of a shape that is also listed in the table of vertices keeps what the list says, a size written for the shape is dropped (C175_shared_violated). Proved for vertices at different places (C175_vertices_partial, C175_sizes_partial); the bound by the sides holds always (C175_sides)."
  },
  {
   "property": "C176",
   "status": "partial",
   "theorems": [
    "TQ.C176_sizes_partial",
    "TQ.C176_unparsable_violated",
    "TQ.C176_library_violated",
    "TQ.C176_prefix_violated"
   ],
   "note": "The code violates this: a text that is no expression leaves the size function of the definition before in use without a message (C176_unparsable_violated), size functions made earlier change when a later one is made (C176_library_violated), and without the expression library everything behind the first number is ignored (C176_prefix_violated). Proved: while a definition is worked on, its own expression is in use if it is one."
  },
  {
   "property": "C177",
   "status": "proved",
   "theorems": [
    "TQ.C177_links",
    "TQ.C177_beside"
   ],
   "note": "For neighbour edges that cover the shared edges of the domain (DomainData) and lie on one edge of the domain each. C177_beside gives the conditions of C163; that the domains are disjoint and the other edges meet in end points only is assumed."
  },
  {
   "property": "C178",
   "status": "proved",
   "theorems": [
    "TQ.C178_next",
    "TQ.C178_mesh",
    "TQ.C178_file"
   ],
   "note": "Runs in which nothing gets in the way are described by GoodRuns (as in C163 and C173); that different ends of boundary edges lie at different points is asked of each intermediate mesh (two domains may touch in a single point), that no links and no fixed boundary edges remain is proved. All definitions are read before the first mesh is made. SeveralExample.lean: a file with two squares, the second one's left side divided by the refined first mesh."
  },
  {
   "property": "C179",
   "status": "proved",
   "theorems": [
    "TQ.C179_triangles",
    "TQ.C179_skipped",
    "TQ.C179_accepted"
   ],
   "note": "exact for triangles with positive area if the tolerance is below the resolution of the points"
  },
  {
   "property": "C180",
   "status": "proved",
   "theorems": [
    "TQ.C180_accepted"
   ],
   "note": "for convex quads in the range of the checks with corners in the range"
  },
  {
   "property": "C181",
   "status": "partial",
   "theorems": [
    "TQ.C181_triangle_quad_partial",
    "TQ.C181_quad_triangle_partial",
    "TQ.C181_quads_partial",
    "TQ.C181_vertex",
    "TQ.C181_edge",
    "TQ.C181_triangle_quad_violated",
    "TQ.C181_quads_violated"
   ],
   "note": "violated by the code: elements with two opposite corners of a quad in common can overlap without being reported; exact if common corners are ends of common sides; vertices and edges in full"
  },
  {
   "property": "C182",
   "status": "partial",
   "theorems": [
    "TQ.C182_statement",
    "TQ.C182_recover",
    "TQ.C182_program",
    "TQ.C182_read_back_partial",
    "TQ.C182_violated"
   ],
   "note": "The full statement is violated (C182_violated): the redirected output also has the lines of the log. Proved: dropping marked lines leaves exactly the meshes (C182_recover, C182_program, C182_read_back_partial), and what a log statement writes (C182_statement). Premises: messages are single lines."
  },
  {
   "property": "C183",
   "status": "proved",
   "theorems": [
    "TQ.C183_bars",
    "TQ.C183_covers",
    "TQ.C183_complete"
   ],
   "note": "Percentages strictly increase, at most 100 bars, bars cover each other, a complete mesh shows 100 percent."
  },
  {
   "property": "C184",
   "status": "partial",
   "theorems": [
    "TQ.C184_edit_partial",
    "TQ.C184_adds",
    "TQ.C184_walk",
    "TQ.C184_boundary_violated",
    "TQ.C184_fixed_violated",
    "TQ.C184_vertex_violated"
   ],
   "note": "The code violates the full statement: remove_boundary, remove_fixed_vertex and remove_vertex leave dangling pointers or stale entries (witnesses in the _violated theorems). Proved for careful histories and for histories that only add, as in the application."
  },
  {
   "property": "C185",
   "status": "proved",
   "theorems": [
    "TQ.C185_register",
    "TQ.C185_lookup",
    "TQ.C185_app",
    "TQ.C185_accesses",
    "TQ.C185_config"
   ],
   "note": "A look-up with another type than that of the registration is undefined in the code and a distinct outcome in the model."
  },
  {
   "property": "C186",
   "status": "proved",
   "theorems": [
    "TQ.C186_first",
    "TQ.C186_next",
    "TQ.C186_quads",
    "TQ.C186_file"
   ],
   "note": ""
  },
  {
   "property": "C187",
   "status": "proved",
   "theorems": [
    "TQ.C187_colours",
    "TQ.C187_file",
    "TQ.C187_negative_violated"
   ],
   "note": "for colours that are not negative; C187_negative_violated shows that negative colours are replaced in merges"
  },
  {
   "property": "C188",
   "status": "proved",
   "theorems": [
    "TQ.C188_markers",
    "TQ.C188_file",
    "TQ.C188_shifted_violated"
   ],
   "note": "Under the stated condition that markers are not shifted when a boundary is built (all markers equal, or corners listed in the kept order); C188_shifted_violated shows that without it the code puts a marker on another side (see C19)."
  },
  {
   "property": "C189",
   "status": "proved",
   "theorems": [
    "TQ.C189_kept",
    "TQ.C189_file"
   ],
   "note": "for definitions whose markers are not shifted by a change of orientation (see C19 and C188_shifted_violated); the exception at sides of other definitions is stated"
  },
  {
   "property": "C190",
   "status": "proved",
   "theorems": [
    "TQ.C190_text",
    "TQ.C190_vtu"
   ],
   "note": "The text file for final meshes whose elements are convex and not too small, as stated (SoundShapes; without it edges may be listed as front, see C168_violated); markers as in C188 and C189, colours that are not negative as in C187."
  },
  {
   "property": "C191",
   "status": "proved",
   "theorems": [
    "TQ.C191_printed"
   ],
   "note": "all histories; the rounding of the output is part of the statement"
  },
  {
   "property": "C192",
   "status": "partial",
   "theorems": [
    "TQ.C192_status_partial",
    "TQ.C192_nothing_violated"
   ],
   "note": "Violated by the code: status 0 without a file and for files without a complete definition (C192_nothing_violated). Proved: with a readable file the status is 0 just if all definitions that are found give a mesh, otherwise 1."
  },
  {
   "property": "C193",
   "status": "proved",
   "theorems": [
    "TQ.C193_line",
    "TQ.C193_table",
    "TQ.C193_shape",
    "TQ.C193_key_needed"
   ],
   "note": "All kinds; C193_shape: the conditions on the shape hold for all parameters of the application. C193_key_needed: without the condition on keys it fails."
  },
  {
   "property": "C194",
   "status": "proved",
   "theorems": [
    "TQ.C194_room",
    "TQ.C194_asked",
    "TQ.C194_given"
   ],
   "note": "C194_given: with a given extent vertices can be outside, and a domain with all vertices at the origin has an empty square."
  },
  {
   "property": "C195",
   "status": "proved",
   "theorems": [
    "TQ.C195_vtu",
    "TQ.C195_near",
    "TQ.C195_text"
   ],
   "note": "Composition over the whole program; the exact statements hold for coordinates that the format can show, C195_near bounds the difference otherwise; without these conditions the tiling is false (C167_violated)."
  },
  {
   "property": "C196",
   "status": "proved",
   "theorems": [
    "TQ.C196_session",
    "TQ.C196_queries"
   ],
   "note": "Refinement for every sequence of calls; a failed assertion is a distinct outcome."
  },
  {
   "property": "C197",
   "status": "partial",
   "theorems": [
    "TQ.C197_unsplit_partial",
    "TQ.C197_small_partial",
    "TQ.C197_violated",
    "TQ.C197_edges_violated",
    "TQ.C197_edges_partial"
   ],
   "note": "The code violates it for every split tree and for every edge list that is not empty (C197_violated, C197_edges_violated); proved for trees that are not split and lists that are empty when moved."
  },
  {
   "property": "C198",
   "status": "partial",
   "theorems": [
    "TQ.C198_moved_partial",
    "TQ.C198_fitting_partial",
    "TQ.C198_unit_partial",
    "TQ.C198_measures",
    "TQ.C198_unit_violated",
    "TQ.C198_small_violated"
   ],
   "note": "The code violates it for the unit of length: the tolerance of orientation is a constant (C198_unit_violated), and in squares with sides below about a ten-thousandth of the unit no triangles are made (C198_small_violated). Proved: place and direction have no influence (C198_moved_partial), nor has the unit if the tolerance grows with it (C198_fitting_partial) or if all triangles are resolved in both units (C198_unit_partial); distances, areas and comparisons follow (C198_measures)."
  },
  {
   "property": "C199",
   "status": "proved",
   "theorems": [
    "TQ.C199_similar",
    "TQ.C199_moved",
    "TQ.C199_tree",
    "TQ.C199_order_violated"
   ],
   "note": "Simulation for generate_elements and generate_elements_exhaustive (C199_similar, C199_moved) in surroundings that follow the domain (Follows), and for the search trees (C199_tree). The code keeps the squares of the trees at the origin, so that the order of reported items, which is a condition of the theorem, can change with the place (C199_order_violated). Later stages are C200, quad layers C201."
  },
  {
   "property": "C200",
   "status": "proved",
   "theorems": [
    "TQ.C200_refined",
    "TQ.C200_merged",
    "TQ.C200_cleaned",
    "TQ.C200_moved",
    "TQ.C200_smoothed",
    "TQ.C200_unit_violated"
   ],
   "note": "Simulation for the refinement (C200_refined, without a tolerance), for the merging of triangles along a given list of edges (C200_merged), for the clean-up (C200_cleaned with a tolerance that fits, C200_moved for turns and shifts) and for the three smoothers (C200_smoothed) in surroundings that follow (SmoothFollows: the order of the neighbours is the same up to the one it begins with). With the constant tolerance of the code the unit matters: C200_unit_violated."
  },
  {
   "property": "C201",
   "status": "proved",
   "theorems": [
    "TQ.C201_similar",
    "TQ.C201_moved",
    "TQ.C201_far_violated"
   ],
   "note": "Simulation for QuadLayering: C201_similar for all similarities in surroundings that follow (LayerFollows), C201_moved for shifts and turns without any other change. The initial distance 1E+10 in EdgeList::get_closest_vertex is a constant, so that the unit matters in the code: C201_far_violated."
  },
  {
   "property": "C202",
   "status": "proved",
   "theorems": [
    "TQ.C202_order",
    "TQ.C202_greedy",
    "TQ.C202_shortest",
    "TQ.C202_placed"
   ],
   "note": "Order of merging: exactly one list meets the description of the sort (C202_order); greedy choice (C202_greedy, C202_shortest) for consistent counter-clockwise meshes with the neighbour pointers of setup_facet_connectivity; independence of place, direction and unit (C202_placed). Lengths are compared by their squares, exact coordinates."
  },
  {
   "property": "C203",
   "status": "partial",
   "theorems": [
    "TQ.C203_place_partial",
    "TQ.C203_quad_violated",
    "TQ.C203_far_violated"
   ],
   "note": "The code violates it: C203_quad_violated (the fourth corner of a quad is read from v3), C203_far_violated (range of twice the displacement). Proved for triangles in reach and for one half of quads in reach. The function has no caller in the library."
  }
 ]
}