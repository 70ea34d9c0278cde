{
 "claims": [
  {
   "property": "C01",
   "status": "proved",
   "theorems": [
    "Verif.Base64.C01_base64_roundtrip",
    "Verif.Base64.C01_base64_size",
    "Verif.Base64.C01_base64_alphabet"
   ],
   "note": "All buffers, both build variants, all alignments; decoder written from RFC 4648."
  },
  {
   "property": "C02",
   "status": "proved",
   "theorems": [
    "Verif.Base64.C02_base64_path_independent",
    "Verif.Base64.C02_block_order_irrelevant",
    "Verif.Base64.C02_alignment_pass_violated"
   ],
   "note": "Includes the AVX2 kernel at bit level and arbitrary completion order of blocks. Side finding C02_alignment_pass_violated: the alignment pass does not reach a 4-byte boundary for offsets 1 and 2 (output unaffected)."
  },
  {
   "property": "C03",
   "status": "proved",
   "theorems": [
    "Verif.Base64.C03_scalar_field",
    "Verif.Base64.C03_vector_field"
   ],
   "note": "Scalar and vector encoders; components of unequal length are reported as undefined behaviour by the model and excluded by hypothesis."
  },
  {
   "property": "C04",
   "status": "partial",
   "theorems": [
    "Verif.Bitset.C04_bitset_refines_set_partial",
    "Verif.Bitset.C04_shrink_violated",
    "Verif.Bitset.C04_regrow_violated",
    "Verif.Bitset.C04_no_ub_iff"
   ],
   "note": "Holds for every in-range history without a lossy shrink; false for shrinks (C04_shrink_violated, C04_regrow_violated): resize keeps stale bits of the last word."
  },
  {
   "property": "C05",
   "status": "proved",
   "theorems": [
    "Verif.Bitset.C05_atomic_set_union",
    "Verif.Bitset.C05_atomic_schedule_independent",
    "Verif.Bitset.C05_subview_count"
   ],
   "note": "Sequentially consistent interleavings of atomic read-modify-write steps; weaker memory orders are not modelled (each bit update is a single atomic RMW on one word)."
  },
  {
   "property": "C06",
   "status": "partial",
   "theorems": [
    "Verif.IntCast.C06_exact_characterisation",
    "Verif.IntCast.C06_exact_cast_partial",
    "Verif.IntCast.C06_returned_value_exact",
    "Verif.IntCast.C06_negative_narrowing_violated"
   ],
   "note": "Exact characterisation proved (C06_exact_characterisation); returned values are always exact, but negative values are spuriously rejected when the target is a narrower signed type (C06_negative_narrowing_violated)."
  },
  {
   "property": "C07",
   "status": "proved",
   "theorems": [
    "Verif.Ser.C07_roundtrip",
    "Verif.Ser.C07_truncation_rejected",
    "Verif.Ser.C07_canonical",
    "Verif.Ser.C07_injective"
   ],
   "note": "All nested shapes of scalars, sequences, pairs and tuples; every truncation is rejected, encoding is canonical."
  },
  {
   "property": "C08",
   "status": "proved",
   "theorems": [
    "Verif.Own.C08_constructor",
    "Verif.Own.C08_local_global_local",
    "Verif.Own.C08_global_local_global",
    "Verif.Own.C08_membership"
   ],
   "note": "Ids as naturals; ghost list duplicate-free (the constructor does not deduplicate)."
  },
  {
   "property": "C09",
   "status": "proved",
   "theorems": [
    "Verif.Own.C09_owner_unique",
    "Verif.Own.C09_out_neighbours",
    "Verif.Own.C09_in_neighbours",
    "Verif.Own.C09_neighbours_consistent"
   ],
   "note": "Blocks of ids in rank order; arbitrary arrival order of messages."
  },
  {
   "property": "C10",
   "status": "proved",
   "theorems": [
    "Verif.Graph.C10_rows_roundtrip",
    "Verif.Graph.C10_make_crs_graph",
    "Verif.Graph.C10_undirected_symmetric"
   ],
   "note": "Every adjacency list, any hash-set iteration order, directed and undirected."
  },
  {
   "property": "C11",
   "status": "proved",
   "theorems": [
    "Verif.Graph.C11_depth_first_search",
    "Verif.Graph.C11_invalid_start",
    "Verif.Graph.C11_components",
    "Verif.Graph.C11_components_of_edges"
   ],
   "note": "Visits exactly the reachable set once; components are exactly the reachability classes, sorted, ordered by least vertex."
  },
  {
   "property": "C12",
   "status": "proved",
   "theorems": [
    "Verif.Spatial.C12_proximate_exact",
    "Verif.Spatial.C12_proximate_complete",
    "Verif.Spatial.C12_proximate_sound",
    "Verif.Spatial.C12_all",
    "Verif.Spatial.C12_exact_spacing_not_covered"
   ],
   "note": "Exact arithmetic over any ordered field with floor; every origin, sign and spacing. The bound is sharp (C12_exact_spacing_not_covered)."
  },
  {
   "property": "C13",
   "status": "partial",
   "theorems": [
    "Verif.StaticVec.C13_refines_list_partial",
    "Verif.StaticVec.C13_erase_content",
    "Verif.StaticVec.C13_erase_result_violated",
    "Verif.StaticVec.C13_sized_ctor"
   ],
   "note": "Content of every operation refines a bounded list; the iterator returned by erase is wrong in general (C13_erase_result_violated)."
  },
  {
   "property": "C14",
   "status": "proved",
   "theorems": [
    "Verif.Gather.C14_staggered_all_gather",
    "Verif.Gather.C14_collectives_match"
   ],
   "note": "All rank counts, message sizes and adversarial window contents; MPI broadcast is modelled by its contract."
  },
  {
   "property": "C15",
   "status": "partial",
   "theorems": [
    "Verif.Algo.C15_sorting_permutation",
    "Verif.Algo.C15_sorting_permutation_exec",
    "Verif.Algo.C15_matching_permutation",
    "Verif.Algo.C15_matching_permutation_inverts",
    "Verif.Algo.C15_sort_remove_dup",
    "Verif.Algo.C15_get_unique_copy",
    "Verif.Algo.C15_sorted_unique_partial",
    "Verif.Algo.C15_sorted_unique_violated",
    "Verif.Algo.C15_index_map",
    "Verif.Algo.C15_invert_map"
   ],
   "note": "All helpers except the array dedup helper, which is wrong for unsorted arguments (C15_sorted_unique_violated)."
  },
  {
   "property": "C16",
   "status": "proved",
   "theorems": [
    "Verif.Grid.C16_linspace",
    "Verif.Grid.C16_linspace_strict_mono",
    "Verif.Grid.C16_reject",
    "Verif.Grid.C16_geomspace",
    "Verif.Grid.C16_geomSpaceProg"
   ],
   "note": "Exact arithmetic over an ordered field / the reals."
  },
  {
   "property": "C17",
   "status": "proved",
   "theorems": [
    "Verif.Guards.C17_parallelism_limit",
    "Verif.Guards.C17_limit_is_minimum",
    "Verif.Guards.C17_parallelism_restored",
    "Verif.Guards.C17_openmp_raised_violated",
    "Verif.Guards.C17_tracker",
    "Verif.Guards.C17_soft_limit_monotone",
    "Verif.Guards.C17_stack_guard"
   ],
   "note": "Well-nested programs of any length; oneTBB's documented minimum rule is assumed. Side finding C17_openmp_raised_violated: OpenMP's setting can be raised above the user's."
  },
  {
   "property": "C18",
   "status": "proved",
   "theorems": [
    "Verif.Erased.C18_no_undefined_behaviour",
    "Verif.Erased.C18_destroyed_once",
    "Verif.Erased.C18_no_leak",
    "Verif.Erased.C18_invoke",
    "Verif.Erased.C18_bool_after_move_violated"
   ],
   "note": "Arbitrary histories over both storage kinds. Side finding C18_bool_after_move_violated: operator bool stays true after being moved from."
  },
  {
   "property": "C19",
   "status": "partial",
   "theorems": [
    "Verif.Guards.C19_move_assign_violated",
    "Verif.Guards.C19_failed_construction_violated",
    "Verif.Guards.C19_finalise_once_partial"
   ],
   "note": "Holds for histories without move-assignment onto an owning guard and without a failing support check (C19_finalise_once_partial); false otherwise (C19_move_assign_violated, C19_failed_construction_violated)."
  },
  {
   "property": "C20",
   "status": "proved",
   "theorems": [
    "Verif.Elem.C20_side_nodes",
    "Verif.Elem.C20_invalid_side",
    "Verif.Elem.C20_boundary_internal"
   ],
   "note": "Every order with fewer than 2^16 nodes per element (index type); sides, boundary, interior and the invalid-side error."
  },
  {
   "property": "C21",
   "status": "partial",
   "theorems": [
    "Verif.Mesh.C21_find_predicate",
    "Verif.Mesh.C21_unsorted_violated",
    "Verif.Mesh.C21_unsorted_missing_violated",
    "Verif.Mesh.C21_find_id_partial"
   ],
   "note": "Lookup by predicate is exact for all meshes; lookup by id is exact when each element vector is sorted by id (C21_find_id_partial) and wrong otherwise (C21_unsorted_violated, C21_unsorted_missing_violated), e.g. after loading a partitioned mesh as one (C37)."
  },
  {
   "property": "C22",
   "status": "partial",
   "theorems": [
    "Verif.Mesh.C22_gap_violated",
    "Verif.Mesh.C22_all_nodes_partial",
    "Verif.Mesh.C22_explicit_range"
   ],
   "note": "Explicit range: exact for all meshes. Derived range: correct exactly if node ids are consecutive (C22_all_nodes_partial); C22_gap_violated otherwise."
  },
  {
   "property": "C23",
   "status": "proved",
   "theorems": [
    "Verif.Mesh.C23_boundary_views"
   ],
   "note": "Any visiting order of the boundary elements; every mesh with distinct domain ids."
  },
  {
   "property": "C24",
   "status": "proved",
   "theorems": [
    "Verif.Prim.C24_grid_numbering",
    "Verif.Prim.C24_cube",
    "Verif.Prim.C24_cube_volume",
    "Verif.Prim.C24_cube_boundary",
    "Verif.Prim.C24_cube_vertices",
    "Verif.Prim.C24_cube_conforming",
    "Verif.Prim.C24_cube_views",
    "Verif.Prim.C24_square",
    "Verif.Prim.C24_square_area",
    "Verif.Prim.C24_square_boundary",
    "Verif.Prim.C24_square_vertices",
    "Verif.Prim.C24_square_conforming",
    "Verif.Prim.C24_square_views",
    "Verif.Prim.C24_line"
   ],
   "note": "Line, square and cube, every grid size >= 2 per direction and every set of distinct domain ids; ids, node use, cells, boundary elements, vertex positions, buildable boundary views."
  },
  {
   "property": "C25",
   "status": "proved",
   "theorems": [
    "Verif.LocView.C25_view_elements",
    "Verif.LocView.C25_reorder_perm"
   ],
   "note": "Reordering is a permutation under arbitrary hash-table iteration orders, provided node indices and incidence sums fit in 32 bits; lifted to the whole LocalMeshView constructor."
  },
  {
   "property": "C26",
   "status": "partial",
   "theorems": [
    "Verif.LocView.C26_local_nodes",
    "Verif.LocView.C26_shared_side_violated",
    "Verif.LocView.C26_sides_partial",
    "Verif.LocView.C26_visit_boundaries"
   ],
   "note": "Node reconstruction proved for all orders (accepted exactly if internal nodes are consecutive). Sides: only the last boundary id survives when a side lies on two boundaries (C26_shared_side_violated); proved when each side is on at most one boundary."
  },
  {
   "property": "C27",
   "status": "partial",
   "theorems": [
    "Verif.Split.C27_elements",
    "Verif.Split.C27_ownership_violated",
    "Verif.Split.C27_ownership_partial"
   ],
   "note": "Elements and boundary elements: proved (parts are exactly the predicate's split, boundary elements with their parents, order kept, constructors succeed). Ownership: wrong when a part's owned nodes are not numbered contiguously (C27_ownership_violated); exact characterisation proved."
  },
  {
   "property": "C28",
   "status": "proved",
   "theorems": [
    "Verif.Partition.C28_partition_nodes"
   ],
   "note": "Post-processing of the partitioner's labels (reassignment of orphaned nodes, renumbering, ownership, ghosts), all meshes and label vectors; METIS itself is arbitrary input."
  },
  {
   "property": "C29",
   "status": "partial",
   "theorems": [
    "Verif.Partition.C29_elements_partial",
    "Verif.Partition.C29_success_iff_partial",
    "Verif.Partition.C29_interface_violated"
   ],
   "note": "Exact characterisation: partitioning succeeds iff every boundary element bounds one domain; then elements are distributed exactly once, to the labelled part, boundary elements with a parent. Fails (throws) for boundaries between two domains (C29_interface_violated)."
  },
  {
   "property": "C30",
   "status": "proved",
   "theorems": [
    "Verif.Partition.C30_condensation_maps",
    "Verif.Partition.C30_condensed_weights",
    "Verif.Partition.C30_metis_input",
    "Verif.Partition.C30_uncondensed_labels"
   ],
   "note": "Condensed node numbering, weights, METIS element-node arrays and un-condensed labels; all meshes."
  },
  {
   "property": "C31",
   "status": "proved",
   "theorems": [
    "Verif.Merge.C31_merge",
    "Verif.Merge.C31_matching"
   ],
   "note": "Proved for the domains, node count and boundary ids handed to the mesh constructor; node coordinates and the spatial lookup enter through the matching map."
  },
  {
   "property": "C32",
   "status": "proved",
   "theorems": [
    "Verif.Extrude.C32_extrude",
    "Verif.Extrude.C32_conforming",
    "Verif.Extrude.C32_coords"
   ],
   "note": "Meshes of lines and quadrilaterals; includes acceptance of the extruded mesh by the mesh constructor and vertex heights."
  },
  {
   "property": "C33",
   "status": "proved",
   "theorems": [
    "Verif.Gmsh.C33_nodes",
    "Verif.Gmsh.C33_order",
    "Verif.Gmsh.C33_positive",
    "Verif.Gmsh.C33_read",
    "Verif.Gmsh.C33_flip",
    "Verif.Gmsh.C33_unsupported"
   ],
   "note": "Starts after tokenisation of the file. A planar quadrilateral with a positive (or negative) turn at all corners gets a positive Jacobian everywhere; for non-convex ones no choice of listing could."
  },
  {
   "property": "C34",
   "status": "proved",
   "theorems": [
    "Verif.Convert.C34_duplicate_violated",
    "Verif.Convert.C34_conversion"
   ],
   "note": "Exact arithmetic; elements must meet in whole common faces and no element may occur twice (C34_duplicate_violated shows what happens otherwise); METIS adjacency and the eigenvalue solver are contracts."
  },
  {
   "property": "C35",
   "status": "proved",
   "theorems": [
    "Verif.NativeIO.C35_load",
    "Verif.NativeIO.C35_disjoint",
    "Verif.NativeIO.C35_mesh"
   ],
   "note": "Any number of ranks, comment, previous file content and write order; includes vertex data, domain dimensions and ownership answers."
  },
  {
   "property": "C36",
   "status": "proved",
   "theorems": [
    "Verif.NativeIO.C36_disjoint",
    "Verif.NativeIO.C36_saved",
    "Verif.NativeIO.C36_loaded"
   ],
   "note": "The ids which local nodes had in the saved mesh are an input (their computation on redistribution is C38)."
  },
  {
   "property": "C37",
   "status": "partial",
   "theorems": [
    "Verif.NativeIO.C37_contents",
    "Verif.NativeIO.C37_find_violated",
    "Verif.NativeIO.C37_find_partial",
    "Verif.NativeIO.C37_boundaries"
   ],
   "note": "Contents proved exactly. Lookup by id fails in general (concrete counterexample); proved when ids increase from part to part."
  },
  {
   "property": "C38",
   "status": "partial",
   "theorems": [
    "Verif.Permute.C38_new_ids",
    "Verif.Permute.C38_old2new",
    "Verif.Permute.C38_ghosts_violated",
    "Verif.Permute.C38_disagree_violated",
    "Verif.Permute.C38_renaming_partial",
    "Verif.Permute.C38_saved_ids_attached",
    "Verif.Permute.C38_old_node_ids",
    "Verif.Permute.C38_ownership"
   ],
   "note": "New ids, ownership and the attachment of saved ids are proved for every permutation of ranks. Renaming of ghost nodes fails in general: new ghost ids are sorted before being matched by position (concrete counterexample, two ranks disagree about the same node); exact condition proved."
  },
  {
   "property": "C39",
   "status": "partial",
   "theorems": [
    "Verif.Dofs.C39_agree",
    "Verif.Dofs.C39_unique",
    "Verif.Dofs.C39_fill",
    "Verif.Dofs.C39_blocks",
    "Verif.Dofs.C39_active_exact",
    "Verif.Dofs.C39_active",
    "Verif.Dofs.C39_active_violated",
    "Verif.Dofs.C39_active_partial",
    "Verif.Dofs.C39_ownership"
   ],
   "note": "Agreement, uniqueness, no gaps, rank blocks and ownership proved for every mesh, problem and rank count, with periodic conditions included. Activity: exact characterisation proved; the plain statement holds for non-periodic components and fails for a periodic node marked only on a rank which has it as a ghost (concrete counterexample)."
  },
  {
   "property": "C40",
   "status": "proved",
   "theorems": [
    "Verif.Dofs.C40_sorted",
    "Verif.Dofs.C40_capacity",
    "Verif.Dofs.C40_order",
    "Verif.Dofs.C40_all"
   ],
   "note": "All tables, node lists and index lists."
  },
  {
   "property": "C41",
   "status": "proved",
   "theorems": [
    "Verif.Dofs.C41_groups",
    "Verif.Dofs.C41_components",
    "Verif.Dofs.C41_pairs",
    "Verif.Dofs.C41_consistent",
    "Verif.Dofs.C41_shared",
    "Verif.Dofs.C41_unaffected"
   ],
   "note": "From any matches (their geometric search is C42): components, representatives, stored information, numbering."
  },
  {
   "property": "C42",
   "status": "partial",
   "theorems": [
    "Verif.PerMatch.C42_sound",
    "Verif.PerMatch.C42_complete_partial",
    "Verif.PerMatch.C42_complete_violated",
    "Verif.PerMatch.C42_missing_ignored",
    "Verif.PerMatch.C42_missing_violated",
    "Verif.PerMatch.C42_translated"
   ],
   "note": "Matches are sound for all inputs. Completeness proved when the grid spacing is not below the tolerance; fails for flat boundaries with the default tolerance (concrete counterexample). A source node without partner is left out silently (proved), contrary to the documented requirement."
  },
  {
   "property": "C43",
   "status": "proved",
   "theorems": [
    "Verif.Dirichlet.C43_defined",
    "Verif.Dirichlet.C43_solutions",
    "Verif.Dirichlet.C43_entries",
    "Verif.Dirichlet.C43_symmetric",
    "Verif.Dirichlet.C43_no_diagonal"
   ],
   "note": "row-wise algorithm on CRS rows over any field; distribution of rows over ranks and Tpetra's storage not modelled"
  },
  {
   "property": "C44",
   "status": "partial",
   "theorems": [
    "Verif.Dirichlet.C44_assembled_one",
    "Verif.Dirichlet.C44_assembled_missing_violated",
    "Verif.Dirichlet.C44_matrix_free_one",
    "Verif.Dirichlet.C44_matrix_free_violated",
    "Verif.Dirichlet.C44_matrix_free_partial"
   ],
   "note": "exactly one dof proved for both systems; violated: assembled system gives no error when the component has no dof, matrix-free constructor passes the number of owned dofs as number of nodes and may throw although a dof exists"
  },
  {
   "property": "C45",
   "status": "proved",
   "theorems": [
    "Verif.MatFree.C45_apply",
    "Verif.MatFree.C45_gather_sumfact",
    "Verif.MatFree.C45_scatter_sumfact"
   ],
   "note": "Distributed model of applyImpl over any commutative ring, additions in any order on every rank; import/export as established by C46/C47; sum-factorisation gather/scatter layouts covered."
  },
  {
   "property": "C46",
   "status": "proved",
   "theorems": [
    "Verif.ImpExp.C46_import"
   ],
   "note": "Import modelled per rank on the ownership tables of C08/C09: after delivery of all messages every ghost row of every vector holds the owner's value; owned rows unchanged."
  },
  {
   "property": "C47",
   "status": "proved",
   "theorems": [
    "Verif.ImpExp.C47_export"
   ],
   "note": "Export with a right-commutative combine: every owned entry is combined exactly once with the value of every rank that has it as a ghost, in any order of arrival; other entries unchanged."
  },
  {
   "property": "C48",
   "status": "partial",
   "theorems": [
    "Verif.ImpExp.C48_within",
    "Verif.ImpExp.C48_collide_iff",
    "Verif.ImpExp.C48_partial",
    "Verif.ImpExp.C48_violated",
    "Verif.ImpExp.C48_same_type_violated"
   ],
   "note": "Within one object all tags differ and fit; tags of two objects collide exactly if their per-scalar-type creation numbers agree mod 256 (C48_collide_iff). Full statement false: objects of different scalar types, or 256 creations apart (witnesses)."
  },
  {
   "property": "C49",
   "status": "proved",
   "theorems": [
    "Verif.TryRecv.C49_at_most_once",
    "Verif.TryRecv.C49_complete",
    "Verif.TryRecv.C49_progress"
   ],
   "note": "Small-step model of tryReceive with any number of calls, spurious lock failures and arrivals interleaved arbitrarily; flag and mutex sequentially consistent."
  },
  {
   "property": "C50",
   "status": "proved",
   "theorems": [
    "Verif.TryRecv.C50_exactly_once",
    "Verif.TryRecv.C50_never_twice",
    "Verif.TryRecv.C50_completes"
   ],
   "note": "Operator application modelled on top of the tryReceive machine: interior elements poll, winner evaluates the border, final testReceive/waitReceive; exactly one border evaluation and post of sends, after arrival, in every schedule."
  },
  {
   "property": "C51",
   "status": "proved",
   "theorems": [
    "Verif.Sparsity.C51_defined",
    "Verif.Sparsity.C51_local",
    "Verif.Sparsity.C51_exchange",
    "Verif.Sparsity.C51_global"
   ],
   "note": "Row sizes counted in any order, slots reserved by fetch_sub and copied in any interleaving (small-step), exchange of shared rows in any order; counters unbounded, CRS rows separate arrays (C10)."
  },
  {
   "property": "C52",
   "status": "proved",
   "theorems": [
    "Verif.Condense.C52_condensation"
   ],
   "note": "Sys model of condenseSystem/endAssembly/recoverSolution in exact arithmetic; symmetric local systems, invertible internal blocks"
  },
  {
   "property": "C53",
   "status": "partial",
   "theorems": [
    "Verif.Condense.C53_partial",
    "Verif.Condense.C53_violated"
   ],
   "note": "true for increasing dof-index lists; false otherwise (C53_violated)"
  },
  {
   "property": "C54",
   "status": "proved",
   "theorems": [
    "Verif.Batch.C54_assembly",
    "Verif.Batch.C54_operator",
    "Verif.Batch.C54_diag_rhs"
   ],
   "note": "exact real arithmetic; assembled and matrix-free (operator, diagonal, right-hand side) paths"
  },
  {
   "property": "C55",
   "status": "partial",
   "theorems": [
    "Verif.Batch.C55_leftover",
    "Verif.Batch.C55_partial",
    "Verif.Batch.C55_violated",
    "Verif.Batch.C55_operator_leftover"
   ],
   "note": "false: pending batch columns survive an exception (C55_violated); exact leftover proved, holds when counts are multiples of the batch size"
  },
  {
   "property": "C56",
   "status": "proved",
   "theorems": [
    "Verif.SumFact.C56_back_quad",
    "Verif.SumFact.C56_back_hex",
    "Verif.SumFact.C56_forward_quad",
    "Verif.SumFact.C56_forward_hex"
   ],
   "note": "statement-by-statement model of the sweeps and buffer reuse"
  },
  {
   "property": "C57",
   "status": "proved",
   "theorems": [
    "Verif.SumFact.C57_interpolation",
    "Verif.SumFact.C57_derivative",
    "Verif.SumOp.C57_matrices",
    "Verif.SumOp.C57_library"
   ],
   "note": "all sizes, parities, block sizes"
  },
  {
   "property": "C58",
   "status": "partial",
   "theorems": [
    "Verif.SumFact.C58_quad",
    "Verif.SumFact.C58_partial",
    "Verif.SumFact.C58_violated"
   ],
   "note": "false for hexahedra: the kernel always sees z = 0 (C58_violated); x, y and Jacobi matrix right; quads proved"
  },
  {
   "property": "C59",
   "status": "partial",
   "theorems": [
    "Verif.NodeVals.C59_kernel",
    "Verif.NodeVals.C59_assembled_kernel",
    "Verif.NodeVals.C59_fields",
    "Verif.NodeVals.C59_assembled_const",
    "Verif.NodeVals.C59_violated",
    "Verif.NodeVals.C59_partial"
   ],
   "note": "Kernel overloads (matrix-free, assembled, node views) and constants on the assembled system: exact average for all distributions, processing orders and transmission times. Constants on the matrix-free system: proved false (counts are posted before they are set; the owner can end with twice the constant), partial theorem when counts are read after the border pass."
  },
  {
   "property": "C60",
   "status": "partial",
   "theorems": [
    "Verif.Session.C60_discipline",
    "Verif.Session.C60_session",
    "Verif.Session.C60_begin_zero",
    "Verif.Session.C60_violated",
    "Verif.Session.C60_violated_operator",
    "Verif.Session.C60_partial"
   ],
   "note": "Assembled system: proved for all call histories (acceptance, unchanged on error, accumulated contents). Matrix-free system: proved false (assembleProblem after endAssembly is accepted and changes only the operator); partial theorem for histories without such calls."
  },
  {
   "property": "C61",
   "status": "partial",
   "theorems": [
    "Verif.Fields.C61_last_write",
    "Verif.Fields.C61_global",
    "Verif.Fields.C61_no_alias",
    "Verif.Fields.C61_out_of_range",
    "Verif.Fields.C61_violated",
    "Verif.Fields.C61_partial"
   ],
   "note": "Readers agree with writers for every history of in-range writes, no aliasing; but out-of-range fields are undefined behaviour instead of an exception (C61_out_of_range, C61_violated), and the range overload of makeFieldValueGetter truncates indices to 32 bits."
  },
  {
   "property": "C62",
   "status": "partial",
   "theorems": [
    "Verif.Integral.C62_local",
    "Verif.Integral.C62_columns",
    "Verif.Integral.C62_partial",
    "Verif.Integral.C62_distribution",
    "Verif.Integral.C62_violated",
    "Verif.Integral.C62_norm",
    "Verif.Integral.C62_norm_zero"
   ],
   "note": "One right-hand side: right for every rank count, bracketing of the parallel reductions and mesh; L2 norm too. Further right-hand sides are never communicated and come back as zero (C62_columns, C62_violated)."
  },
  {
   "property": "C63",
   "status": "proved",
   "theorems": [
    "Verif.Poly.C63_evaluate",
    "Verif.Poly.C63_derivative",
    "Verif.Poly.C63_hasDerivAt",
    "Verif.Poly.C63_integral",
    "Verif.Poly.C63_integral_real",
    "Verif.Poly.C63_derivative_integral",
    "Verif.Poly.C63_integral_derivative",
    "Verif.Poly.C63_roots"
   ],
   "note": ""
  },
  {
   "property": "C64",
   "status": "proved",
   "theorems": [
    "Verif.Poly.C64_interpolates",
    "Verif.Poly.C64_degree",
    "Verif.Poly.C64_unique",
    "Verif.Poly.C64_reproduces",
    "Verif.Poly.C64_linear"
   ],
   "note": ""
  },
  {
   "property": "C65",
   "status": "proved",
   "theorems": [
    "Verif.Poly.C65_degree",
    "Verif.Poly.C65_bonnet",
    "Verif.Poly.C65_value_at_one",
    "Verif.Poly.C65_parity",
    "Verif.Poly.C65_orthogonal",
    "Verif.Poly.C65_unique",
    "Verif.Poly.C65_zeros",
    "Verif.Poly.C65_lobatto_points"
   ],
   "note": "The eigenvalue solver behind Polynomial::roots is a contract (returns the eigenvalues of the companion matrix); that these are the polynomial's zeros, and everything about the Legendre and Lobatto polynomials and points, is proved."
  },
  {
   "property": "C66",
   "status": "proved",
   "theorems": [
    "Verif.Quad.C66_line",
    "Verif.Quad.C66_points",
    "Verif.Quad.C66_unique",
    "Verif.Quad.C66_quad",
    "Verif.Quad.C66_hex",
    "Verif.SumOp.C66_symmetric"
   ],
   "note": "Exact arithmetic; the symmetric eigenvalue solver is a contract (orthonormal eigenvectors, sorted eigenvalues), shown satisfiable and to determine the rule uniquely."
  },
  {
   "property": "C68",
   "status": "proved",
   "theorems": [
    "Verif.Basis.C68_line",
    "Verif.Basis.C68_quad",
    "Verif.Basis.C68_hex",
    "Verif.Basis.C68_derivative",
    "Verif.Basis.C68_abscissae"
   ],
   "note": "Exact arithmetic."
  },
  {
   "property": "C69",
   "status": "proved",
   "theorems": [
    "Verif.Mapping.C69_normal",
    "Verif.Mapping.C69_unique"
   ],
   "note": "Exact arithmetic."
  },
  {
   "property": "C70",
   "status": "proved",
   "theorems": [
    "Verif.Mapping.C70_side_point",
    "Verif.Mapping.C70_bijective"
   ],
   "note": "Exact arithmetic and trigonometry."
  },
  {
   "property": "C71",
   "status": "partial",
   "theorems": [
    "Verif.Mapping.C71_partial",
    "Verif.Mapping.C71_violated",
    "Verif.Mapping.C71_line_zero",
    "Verif.Mapping.C71_positive"
   ],
   "note": "Violated for line elements: the surface Jacobian of an end point is 0, so boundary integrals over the ends of one-dimensional domains vanish (C71_violated, C71_line_zero). Proved for quadrilaterals and hexahedra."
  },
  {
   "property": "C73",
   "status": "proved",
   "theorems": [
    "Verif.Vtk.C73_reader",
    "Verif.Vtk.C73_positions",
    "Verif.Vtk.C73_each_once",
    "Verif.Vtk.C73_distinct",
    "Verif.Vtk.C73_offset_wraps"
   ],
   "note": "Connectivity read back by an independent reader of the VTK arrays; below 2^32 connectivity entries per rank (32-bit running offset; C73_offset_wraps shows the exact value beyond)."
  },
  {
   "property": "C74",
   "status": "proved",
   "theorems": [
    "Verif.Vtk.C74_arrays",
    "Verif.Vtk.C74_components"
   ],
   "note": "The header is parsed back by an independent attribute reader; field names without quotation marks (names are not escaped)."
  },
  {
   "property": "C75",
   "status": "partial",
   "theorems": [
    "Verif.Vtk.C75_vectors",
    "Verif.Vtk.C75_scalars",
    "Verif.Vtk.C75_violated",
    "Verif.Vtk.C75_partial",
    "Verif.Vtk.C75_declarations"
   ],
   "note": "False when the first two fields are vectors: the parallel header declares the second as active scalars (C75_violated); exact behaviour proved for all field lists."
  },
  {
   "property": "C77",
   "status": "partial",
   "theorems": [
    "Verif.Solve.C77_exact",
    "Verif.Solve.C77_partial",
    "Verif.Solve.C77_violated",
    "Verif.Solve.C77_diagonal",
    "Verif.Solve.C77_init",
    "Verif.Solve.C77_positive"
   ],
   "note": "False for beta != 0 and two or more sweeps (C77_violated); exact result of s sweeps proved (C77_exact), contract holds for one sweep or beta = 0; Jacobi multipliers characterised (threshold, sign, zero entries)."
  },
  {
   "property": "C78",
   "status": "partial",
   "theorems": [
    "Verif.Solve.C78_amesos_exact",
    "Verif.Solve.C78_belos_exact",
    "Verif.Solve.C78_partial",
    "Verif.Solve.C78_violated",
    "Verif.Solve.C78_after_error"
   ],
   "note": "False: the objects of the first call are kept (C78_violated), also after a refused first call (C78_after_error); exact behaviour proved; true when a solver object is always used with the same objects, with changing contents. Third-party solvers are a contract."
  },
  {
   "property": "C79",
   "status": "proved",
   "theorems": [
    "Verif.IntCast.C79_integral_power",
    "Verif.IntCast.C79_integral_power_unsigned",
    "Verif.IntCast.C79_smallest_integral"
   ],
   "note": "Widths 8..64 as in the source."
  },
  {
   "property": "C80",
   "status": "partial",
   "theorems": [
    "Verif.StaticVec.C80_push_only_partial",
    "Verif.StaticVec.C80_pop_violated"
   ],
   "note": "Holds for histories without removal (C80_push_only_partial); false once pop_back/erase is used (C80_pop_violated)."
  },
  {
   "property": "C81",
   "status": "proved",
   "theorems": [
    "Verif.Mapping.C81_jacobi",
    "Verif.Mapping.C81_partials",
    "Verif.Mapping.C81_vertices"
   ],
   "note": "Exact arithmetic."
  },
  {
   "property": "C82",
   "status": "proved",
   "theorems": [
    "Verif.Mapping.C82_gradient",
    "Verif.Mapping.C82_patch"
   ],
   "note": "Exact arithmetic."
  },
  {
   "property": "C76",
   "status": "proved",
   "theorems": [
    "Verif.Vtk.C76_sources",
    "Verif.Vtk.C76_distinct"
   ],
   "note": "POSIX semantics of std::filesystem::path stem/replace_extension modelled on byte strings; export names whose file name part is not empty."
  },
  {
   "property": "C83",
   "status": "partial",
   "theorems": [
    "Verif.Vtk.C83_length",
    "Verif.Vtk.C83_partial",
    "Verif.Vtk.C83_violated"
   ],
   "note": "False: files are opened without truncation, a longer previous file keeps its tail (C83_violated, C83_length); exact when the previous file is not longer."
  },
  {
   "property": "C84",
   "status": "partial",
   "theorems": [
    "Verif.Vtk.C84_partial",
    "Verif.Vtk.C84_violated"
   ],
   "note": "False: the part after the last dot is dropped, phi_0.1 and phi_0.2 collide (C84_violated); true for names with the same extension."
  },
  {
   "property": "C85",
   "status": "partial",
   "theorems": [
    "Verif.Solve.C85_partial",
    "Verif.Solve.C85_violated"
   ],
   "note": "False: a matrix-based preconditioner with a matrix-free system is undefined behaviour (C85_violated); exact characterisation proved."
  },
  {
   "property": "C86",
   "status": "partial",
   "theorems": [
    "Verif.GmshText.C86_text_partial",
    "Verif.GmshText.C86_empty_block",
    "Verif.GmshText.C86_violated"
   ],
   "note": "Exact for every layout and content when no node block is empty (C86_text_partial); an empty node block swallows a number of the next header because the istream_iterator reads on construction (C86_violated). Conversion of decimal fractions is a parameter."
  },
  {
   "property": "C87",
   "status": "partial",
   "theorems": [
    "Verif.GmshText.C87_refused_partial",
    "Verif.GmshText.C87_no_format",
    "Verif.GmshText.C87_other_format",
    "Verif.GmshText.C87_several_tags",
    "Verif.GmshText.C87_empty_last",
    "Verif.GmshText.C87_large_tag",
    "Verif.GmshText.C87_truncated",
    "Verif.GmshText.C87_violated"
   ],
   "note": "False: a physical tag above 65535, a node section cut short or an empty last node block lead to use of unassigned variables (C87_large_tag, C87_truncated, C87_empty_last). True for texts in the format with numbers in range (C87_refused_partial); a missing format section, another or binary format (C87_other_format) and an entity with several physical tags (C87_several_tags) are refused."
  },
  {
   "property": "C88",
   "status": "proved",
   "theorems": [
    "Verif.NodeOrd.C88_node_order",
    "Verif.NodeOrd.C88_throws_iff"
   ],
   "note": ""
  },
  {
   "property": "C89",
   "status": "proved",
   "theorems": [
    "Verif.NodeOrd.C89_weights",
    "Verif.NodeOrd.C89_no_definitions",
    "Verif.NodeOrd.C89_define",
    "Verif.NodeOrd.C89_outside"
   ],
   "note": ""
  },
  {
   "property": "C90",
   "status": "partial",
   "theorems": [
    "Verif.UniVec.C90_at",
    "Verif.UniVec.C90_find",
    "Verif.UniVec.C90_visit",
    "Verif.UniVec.C90_reduce_partial",
    "Verif.UniVec.C90_reduce_violated"
   ],
   "note": "holds for neutral initial values; refuted for others (the initial value is used once per element type and once more)"
  },
  {
   "property": "C91",
   "status": "partial",
   "theorems": [
    "Verif.SumOp.C91_quad",
    "Verif.SumOp.C91_hex_partial",
    "Verif.SumOp.C91_hex_violated"
   ],
   "note": "quadrilaterals in full; hexahedra for kernels which do not use the third space coordinate: evalAtHexQPs passes z = 0 to the kernel (C91_hex_violated)"
  },
  {
   "property": "C92",
   "status": "partial",
   "theorems": [
    "Verif.StatInit.C92_ordered_partial",
    "Verif.StatInit.C92_basic",
    "Verif.StatInit.C92_zero",
    "Verif.StatInit.C92_violated"
   ],
   "note": "right for every order in which a matrix follows the one it is computed from; the language guarantees no such order (C92_violated). Reading before initialisation is modelled as reading zeros"
  },
  {
   "property": "C93",
   "status": "proved",
   "theorems": [
    "Verif.Lsq.C93_minimiser",
    "Verif.Lsq.C93_definite",
    "Verif.Lsq.C93_solvable",
    "Verif.Lsq.C93_matrix_free",
    "Verif.Lsq.C93_assembled",
    "Verif.Lsq.C93_weights"
   ],
   "note": "Tpetra itself is not modelled: sumIntoLocalValues and the export of shared rows are taken to add."
  },
  {
   "property": "C94",
   "status": "partial",
   "theorems": [
    "Verif.MfInit.C94_rhs",
    "Verif.MfInit.C94_diag_partial",
    "Verif.MfInit.C94_diag_violated"
   ],
   "note": "The claim on the diagonal is false for elements that contain a dof twice (C94_diag_violated); proved for elements with pairwise different dofs."
  },
  {
   "property": "C95",
   "status": "partial",
   "theorems": [
    "Verif.MfCols.C95_columns",
    "Verif.MfCols.C95_bounds_partial",
    "Verif.MfCols.C95_violated"
   ],
   "note": "defineOperator lacks the requirement on the kernel's number of right-hand sides; with a smaller number the buffers overflow (C95_violated). Proved for matching numbers."
  },
  {
   "property": "C96",
   "status": "proved",
   "theorems": [
    "Verif.RobinHood.C96_hash_table_is_map",
    "Verif.RobinHood.C96_small_tables_never_throw",
    "Verif.RobinHood.C96_equal_hashes_throw",
    "Verif.RobinHood.C96_equality_is_extensional"
   ],
   "note": "Flat map/set; keys with total equality; hash a function of the key. Copy/move/swap of whole tables, allocation failure and the state left behind by a throwing call are not modelled."
  },
  {
   "property": "C97",
   "status": "proved",
   "theorems": [
    "Verif.RobinHood.C97_integer_hash_injective"
   ],
   "note": "hash_int and the mixing step."
  },
  {
   "property": "C98",
   "status": "partial",
   "theorems": [
    "Verif.SolUpd.C98_matrix_free_update_partial",
    "Verif.SolUpd.C98_assembled_update",
    "Verif.SolUpd.C98_bad_indices_throw",
    "Verif.SolUpd.C98_same_fields",
    "Verif.SolUpd.C98_repeated_fields_violated",
    "Verif.SolUpd.C98_large_vectors_violated"
   ],
   "note": "Proved for store orders, stale buffers, agreement of both system kinds, rejection of bad lists. Violated: repeated destination fields are accepted and the outcome is then a race; positions in the vectors are computed in 32 bits (undefined for 2^31 entries per block), excluded by Sys.Valid.small. Condensed systems are in C99."
  },
  {
   "property": "C99",
   "status": "partial",
   "theorems": [
    "Verif.CondInit.C99_layout",
    "Verif.CondInit.C99_many_dofs_violated",
    "Verif.CondInit.C99_condensed_update",
    "Verif.CondInit.C99_internal_dofs_partial",
    "Verif.CondInit.C99_violated",
    "Verif.CondInit.C99_singular_block"
   ],
   "note": "Proved: block sizes, sortedness, recovery for all store orders, own components always condensed, equality when no foreign component reaches all boundary nodes. Violated: an inclusion of one element surrounded by another domain condenses the other domain's component, and its block is then singular for all kernels; more than 255 dofs per node make the constructor's 8-bit loop endless."
  },
  {
   "property": "C100",
   "status": "partial",
   "theorems": [
    "Verif.Rot.C100_rotations_partial",
    "Verif.Rot.C100_planar_sign_violated",
    "Verif.Rot.C100_group"
   ],
   "note": "spatial rotations proved right-handed, all matrices proved rigid; the planar function is proved to rotate by the opposite of the angle given"
  },
  {
   "property": "C101",
   "status": "partial",
   "theorems": [
    "Verif.Coll.C101_send_receive",
    "Verif.Coll.C101_truncation",
    "Verif.Coll.C101_gather",
    "Verif.Coll.C101_all_gather",
    "Verif.Coll.C101_broadcast",
    "Verif.Coll.C101_scatter_partial",
    "Verif.Coll.C101_scatter_violated",
    "Verif.Coll.C101_scatter_statement_violated",
    "Verif.Coll.C101_all_to_all_partial",
    "Verif.Coll.C101_all_to_all_violated",
    "Verif.Coll.C101_large_buffers_violated",
    "Verif.Coll.C101_throughputs_partial",
    "Verif.Coll.C101_shares",
    "Verif.Coll.C101_throughputs_violated"
   ],
   "note": "send/receive, gather, all-gather, broadcast proved for all element types up to 2^31-1 units; scatter proved for built-in types and proved to fail for all others; all-to-all proved for divisible sizes and proved to drop or tear elements otherwise; counts beyond int and the null iterator of gatherNodeThroughputs proved violations"
  },
  {
   "property": "C102",
   "status": "proved",
   "theorems": [
    "Verif.Handles.C102_one_owner",
    "Verif.Handles.C102_never_dangling",
    "Verif.Handles.C102_no_leak",
    "Verif.Handles.C102_released",
    "Verif.Handles.C102_progress"
   ],
   "note": "MPI calls assumed not to fail; completion order of requests is arbitrary"
  },
  {
   "property": "C103",
   "status": "partial",
   "theorems": [
    "Verif.AsmOrd.C103_line",
    "Verif.AsmOrd.C103_partial",
    "Verif.AsmOrd.C103_local_partial",
    "Verif.AsmOrd.C103_violated",
    "Verif.AsmOrd.C103_local_violated"
   ],
   "note": "exact on segments for all options; on quadrilaterals and hexahedra exact when a derivative is counted with the full degree of the basis (so always for derivative_order = 0); false as stated there: with (0, 2) on order 1 the square of a derivative integrates to zero, with (1, 1) (example 07) an energy of 4/5 is computed as 4/9; orders above 255 wrap"
  },
  {
   "property": "C104",
   "status": "partial",
   "theorems": [
    "Verif.Cyl.C104_positive_partial",
    "Verif.Cyl.C104_half_positive_partial",
    "Verif.Cyl.C104_area_partial",
    "Verif.Cyl.C104_half_area_partial",
    "Verif.Cyl.C104_interfaces_partial",
    "Verif.Cyl.C104_half_interfaces_partial",
    "Verif.Cyl.C104_ids_partial",
    "Verif.Cyl.C104_ids_violated",
    "Verif.Cyl.C104_radius_violated",
    "Verif.Cyl.C104_violated"
   ],
   "note": "proved for r_inner > 0: positive jacobians, areas, interfaces, exact condition on the ids, for the full and the half mesh; refuted: correct() accepts r_inner <= 0, and a domain id in 1..4 throws although all ids are distinct. Merging of the blocks is C31; extrusion to 3D is not restated."
  },
  {
   "property": "C105",
   "status": "partial",
   "theorems": [
    "Verif.DirDofs.C105_definition",
    "Verif.DirDofs.C105_assembled_partial",
    "Verif.DirDofs.C105_absent_component",
    "Verif.DirDofs.C105_absent_component_violated",
    "Verif.DirDofs.C105_matrix_free",
    "Verif.DirDofs.C105_agree_partial",
    "Verif.DirDofs.C105_volume_violated"
   ],
   "note": "Full result for the matrix-free system and for the definitions. Assembled system: only if every named component exists at every node of the named boundary (the search does not filter invalid dofs); shown to fail otherwise for every mesh. An id of a volume domain is treated differently by the two systems. MPI/Tpetra exchange is its contract (C46, C47 for the matrix-free one); choice of normalised dofs is C44."
  },
  {
   "property": "C106",
   "status": "partial",
   "theorems": [
    "Verif.Kern.C106_equation",
    "Verif.Kern.C106_accumulate",
    "Verif.Kern.C106_residual_iff",
    "Verif.Kern.C106_residual_partial",
    "Verif.Kern.C106_residual_violated",
    "Verif.Kern.C106_norm_square"
   ],
   "note": "Equation kernels in full. Residual kernels get an object that is not initialised: defined iff the kernel assigns every component and reads none before (then same as from zero); += in a residual kernel shown undefined. A kernel is its sequence of scalar assignments; Eigen's default constructor leaves coefficients indeterminate (Eigen 3.4, EIGEN_INITIALIZE_MATRICES_BY_ZERO not set)."
  },
  {
   "property": "C107",
   "status": "partial",
   "theorems": [
    "Verif.Flux.C107_area_vector",
    "Verif.Flux.C107_partial",
    "Verif.Flux.C107_closed",
    "Verif.Flux.C107_line_zero",
    "Verif.Flux.C107_violated",
    "Verif.Flux.C107_order_violated"
   ],
   "note": "quadrilaterals and hexahedra in full for rules exact to degree m + dim - 2 (in the odd degree a rule of that size has); constant fields for every rule. False for segments: the boundary jacobian of an end point is 0, so all boundary integrals vanish; with the order the library picks for value order 0 and derivative order 1 on order-2 elements the balance fails (trapezium)."
  },
  {
   "property": "C108",
   "status": "proved",
   "theorems": [
    "Verif.Rounds.C108_rounds",
    "Verif.Rounds.C108_library",
    "Verif.Rounds.C108_inverse",
    "Verif.Rounds.C108_unseparated"
   ],
   "note": "for every sequence of the library calls listed in Call; contents of the messages are C07, C38, C46; several ranks' threads using one communicator concurrently are not modelled; periodic boundary setup is not in the list. C108_unseparated shows why the collective between wildcard rounds is needed (the library has it)."
  },
  {
   "property": "C109",
   "status": "proved",
   "theorems": [
    "Verif.Patch.C109_exact",
    "Verif.Patch.C109_matrix_free",
    "Verif.Patch.C109_linear",
    "Verif.Patch.C109_affine",
    "Verif.Patch.C109_box",
    "Verif.Patch.C109_space_linear"
   ],
   "note": "composition of C66, C68, C70, C81, C82, C93; exact real arithmetic, Tpetra as in C93; boundary views need nonsingular Jacobi matrices at their points (the library does not check)"
  },
  {
   "property": "C110",
   "status": "partial",
   "theorems": [
    "Verif.CVec.C110_programs_partial",
    "Verif.CVec.C110_plain_partial",
    "Verif.CVec.C110_violated",
    "Verif.CVec.C110_growth",
    "Verif.CVec.C110_reserve"
   ],
   "note": "Refinement to lists, absence of leaks, growth and reserve guarantees proved for all programs in which elements of a vector are appended to the same vector only while it has spare room; without that restriction the statement is false (C110_violated: emplaceBack frees the old storage before it reads its argument). Copy assignment does not compile and is not modelled."
  },
  {
   "property": "C111",
   "status": "partial",
   "theorems": [
    "Verif.RefStable.C111_contents",
    "Verif.RefStable.C111_stable",
    "Verif.RefStable.C111_destroy",
    "Verif.RefStable.C111_iterators",
    "Verif.RefStable.C111_unique_partial",
    "Verif.RefStable.C111_leak_violated",
    "Verif.RefStable.C111_postfix_violated",
    "Verif.RefStable.C111_moved_violated",
    "Verif.RefStable.C111_violated"
   ],
   "note": "Contents, reference stability, iterators and destruction of the collection proved in full; unique pointers never free twice. False parts, each with a witness: move assignment of a unique pointer leaks what it owned, postfix ++/-- do not advance, a moved-from collection keeps its size."
  },
  {
   "property": "C112",
   "status": "partial",
   "theorems": [
    "Verif.Distr.C112_intrinsic",
    "Verif.Distr.C112_independent",
    "Verif.Distr.C112_matrix_free",
    "Verif.Distr.C112_size",
    "Verif.Distr.C112_runs_partial",
    "Verif.Distr.C112_runs_matrix_free_partial",
    "Verif.Distr.C112_marked",
    "Verif.Distr.C112_violated"
   ],
   "note": "full for meshes without periodic boundaries and on one rank (C112_marked); with periodic boundaries on several ranks it needs every redirected active node to be visited on its owner, without which the number of unknowns depends on the rank count (C112_violated)"
  },
  {
   "property": "C113",
   "status": "partial",
   "theorems": [
    "Verif.Pipeline.C113_reordered_partial",
    "Verif.Pipeline.C113_same_answer",
    "Verif.Pipeline.C113_reordering_violated"
   ],
   "note": "C113_same_answer proves the default path (no reordering) for every mesh whose boundary elements have one parent, kernels on domains and boundaries, elements assembled in any order, and every answer of the partitioner, C113_reordered_partial includes reordering that keeps the order of ghosts. With arbitrary reordering the statement is false (consequence of C38): C113_reordering_violated exhibits a mesh whose system gains an unknown. Periodicity and condensation are not part of the composition."
  },
  {
   "property": "C114",
   "status": "proved",
   "theorems": [
    "Verif.Report.C114_integral",
    "Verif.Report.C114_boundary",
    "Verif.Report.C114_reads",
    "Verif.Report.C114_norm",
    "Verif.Report.C114_defined"
   ],
   "note": "computeIntegral over domains and boundaries and computeNormL2 after updateSolution; sums over the reals; distributions by partitioning (any labels), also handed to ranks in an order-preserving way; static condensation off"
  },
  {
   "property": "C115",
   "status": "partial",
   "theorems": [
    "Verif.CondRace.C115_assembly_partial",
    "Verif.CondRace.C115_domain_kernels",
    "Verif.CondRace.C115_boundary_partial",
    "Verif.CondRace.C115_races_iff",
    "Verif.CondRace.C115_violated",
    "Verif.CondRace.C115_corner_races"
   ],
   "note": "False for boundary kernels in general: the sides of one element are processed in parallel and the additions to its blocks are not atomic (C115_violated: a corner element loses an addition; C115_races_iff says when there is a data race). Proved for domain kernels with distinct domains, and for boundary kernels when no element has two sides on the boundaries named. Exact arithmetic; interleavings of loads and stores are sequentially consistent."
  },
  {
   "property": "C116",
   "status": "partial",
   "theorems": [
    "Verif.CondDistr.C116_violated",
    "Verif.CondDistr.C116_intrinsic_partial",
    "Verif.CondDistr.C116_recovers_partial",
    "Verif.CondDistr.C116_invertible",
    "Verif.CondDistr.C116_same_partial"
   ],
   "note": "Proved for kernels listing their components in increasing order and elements whose active components include every component the boundary nodes carry (C98); without the first a concrete problem gets its internal components exchanged (C116_violated)."
  },
  {
   "property": "C117",
   "status": "partial",
   "theorems": [
    "Verif.PerPipe.C117_identified",
    "Verif.PerPipe.C117_numbers_partial",
    "Verif.PerPipe.C117_same_answer_partial",
    "Verif.PerPipe.C117_violated"
   ],
   "note": "Construction and identification of nodes proved without further condition (C117_identified). Numbers and answers proved for periodic components active in all domains; without that a concrete mesh of three elements on two ranks has an unknown without a number (C117_violated). Positions are real numbers; matching sides agree exactly."
  },
  {
   "property": "C118",
   "status": "partial",
   "theorems": [
    "Verif.CondPipe.C118_numbers_partial",
    "Verif.CondPipe.C118_condensed_partial",
    "Verif.CondPipe.C118_invertible",
    "Verif.CondPipe.C118_same_answer_partial"
   ],
   "note": "Proved for programs which can be condensed: domains of the problem definition are not boundaries, Dirichlet conditions are on boundaries, kernels list components in increasing order, a component which all boundary nodes of an element have is active in its domain, and periodic components are active in all domains. Without the third the statement is false by C116_violated, without the last by C117_violated. Invertibility of the blocks follows from uniqueness of the solution (C118_invertible, no condition beyond those). Real arithmetic; maps hold the dofs of their rank (C52)."
  },
  {
   "property": "C119",
   "status": "proved",
   "theorems": [
    "Verif.Gen.C119_conversion",
    "Verif.Gen.C119_line",
    "Verif.Gen.C119_square",
    "Verif.Gen.C119_cube",
    "Verif.Gen.C119_boundaries",
    "Verif.Gen.C119_square_answer",
    "Verif.Gen.C119_cube_answer"
   ],
   "note": "coordinates are real numbers; the eigenvalue routine and METIS enter by the contracts already used in C34; sizes do not overflow"
  },
  {
   "property": "C120",
   "status": "partial",
   "theorems": [
    "Verif.DimCheck.C120_all_or_throw",
    "Verif.DimCheck.C120_boundary",
    "Verif.DimCheck.C120_distributed",
    "Verif.DimCheck.C120_some_rank_throws",
    "Verif.DimCheck.C120_agreement_violated",
    "Verif.DimCheck.C120_agreement_partial",
    "Verif.DimCheck.C120_unchecked_violated"
   ],
   "note": "Proved on one mesh for domains and boundaries, and on a distributed mesh: no exception anywhere means every element was processed exactly once; a misfit makes at least one rank throw. False: ranks do not agree (a rank without the domain goes on; C120_agreement_violated; they agree if all ranks have elements of the listed domains); matrix-free systems and integrals do not check and skip silently (C120_unchecked_violated)."
  },
  {
   "property": "C121",
   "status": "partial",
   "theorems": [
    "Verif.MfPipe.C121_evaluations_partial",
    "Verif.MfPipe.C121_same_answer_partial",
    "Verif.MfPipe.C121_fits",
    "Verif.MfPipe.C121_boundary_domain_violated",
    "Verif.MfPipe.C121_shared_side_violated"
   ],
   "note": "False as stated, with witnesses: a domain kernel on a boundary domain is assembled but never evaluated matrix-free (C121_boundary_domain_violated), and a side in two boundaries is evaluated for one of them only (C121_shared_side_violated). Proved for meshes and programs without these: evaluations are a permutation of the assembled contributions on every rank, and answers agree between a matrix-free run on one distribution and an assembled run on any other. Views need 32-bit sizes and internal nodes numbered consecutively (Fits; C121_fits for order one)."
  },
  {
   "property": "C122",
   "status": "partial",
   "theorems": [
    "Verif.MfGen.C122_labels",
    "Verif.MfGen.C122_partitions_partial",
    "Verif.MfGen.C122_internal_nodes_partial",
    "Verif.MfGen.C122_fits_partial",
    "Verif.MfGen.C122_views_partial",
    "Verif.MfGen.C122_conversion",
    "Verif.MfGen.C122_line",
    "Verif.MfGen.C122_square",
    "Verif.MfGen.C122_cube",
    "Verif.MfGen.C122_lower_domain_violated"
   ],
   "note": "False as stated, with a witness: an edge of an element of order 3 which is a domain and not a boundary makes construction throw (C122_lower_domain_violated). Proved for all meshes in which nodes inside elements of domains are consecutive and not shared (Inner), which is proved of every converted mesh without lower-dimensional domains other than boundaries and of all line, square and cube meshes; C122_line, C122_square, C122_cube and C122_conversion have no such hypothesis left. METIS is any function returning labels in range."
  },
  {
   "property": "C123",
   "status": "partial",
   "theorems": [
    "Verif.Reach.C123_domain_kernel",
    "Verif.Reach.C123_boundary_kernel",
    "Verif.Reach.C123_constant_domains_partial",
    "Verif.Reach.C123_constant_domains_throws",
    "Verif.Reach.C123_constant_boundaries_partial",
    "Verif.Reach.C123_constant_boundaries_throws",
    "Verif.Reach.C123_constant_boundaries_ignored",
    "Verif.Reach.C123_mesh_domain",
    "Verif.Reach.C123_mesh_boundary",
    "Verif.Reach.C123_one_rank",
    "Verif.Reach.C123_violated"
   ],
   "note": "Proved for kernels, on every distribution. Constants: the matrix-free overload takes ids for boundaries only on ranks where a listed boundary touches both interior and border elements; otherwise it throws, or, where a rank has only one kind of element (always on one rank), writes nothing. Proved case by case; the full statement is refuted."
  },
  {
   "property": "C124",
   "status": "proved",
   "theorems": [
    "Verif.SetVals.C124_assembled",
    "Verif.SetVals.C124_matrix_free",
    "Verif.SetVals.C124_assembled_exists",
    "Verif.SetVals.C124_matrix_free_exists",
    "Verif.SetVals.C124_calls",
    "Verif.SetVals.C124_mf_calls",
    "Verif.SetVals.C124_same_values",
    "Verif.SetVals.C124_function",
    "Verif.SetVals.C124_same_answer"
   ],
   "note": "Both systems refine one specification on the undistributed mesh, for all sequences of calls; meshes as in C123 (boundary elements are sides of one element, ...); fewer than 65536 contributions per unknown in the matrix-free system"
  },
  {
   "property": "C125",
   "status": "proved",
   "theorems": [
    "Verif.Steps.C125_step",
    "Verif.Steps.C125_program",
    "Verif.Steps.C125_same_fields",
    "Verif.Steps.C125_runs",
    "Verif.Steps.C125_can_run",
    "Verif.Steps.C125_start"
   ],
   "note": "One theorem for a step, one for programs by induction, one for what is read back, one for existence of runs, one for simulation between distributions, one for the start. Uniqueness of the solutions is a hypothesis of the determinism theorems (least-squares problems may have many solutions); fields are not changed between assembleProblem and the end of solve (see C126)."
  },
  {
   "property": "C126",
   "status": "partial",
   "theorems": [
    "Verif.When.C126_witnesses",
    "Verif.When.C126_violated",
    "Verif.When.C126_partial",
    "Verif.When.C126_assembled_reads",
    "Verif.When.C126_matrix_free_reads"
   ],
   "note": "What each kind reads and when is proved for all histories (C126_assembled_reads, C126_matrix_free_reads). The full statement is refuted: fields set after assembleProblem change the matrix-free operator (and right-hand side if before endAssembly), and a destroyed manager is read. Proved if fields stay from the first reading kernel to the end of the session."
  },
  {
   "property": "C127",
   "status": "proved",
   "theorems": [
    "Verif.ExtGen.C127_ready",
    "Verif.ExtGen.C127_any_order",
    "Verif.ExtGen.C127_matrix_free",
    "Verif.ExtGen.C127_square"
   ],
   "note": "Ready at order 1 and any order; assembled and matrix-free; every square as an instance"
  },
  {
   "property": "C128",
   "status": "partial",
   "theorems": [
    "Verif.MergeGen.C128_match",
    "Verif.MergeGen.C128_merge",
    "Verif.MergeGen.C128_all",
    "Verif.MergeGen.C128_squares",
    "Verif.MergeGen.C128_find_violated",
    "Verif.MergeGen.C128_place_violated",
    "Verif.MergeGen.C128_tolerance_partial"
   ],
   "note": "Merging is proved for meshes whose different nodes are farther apart than the tolerance. The tolerance itself is refuted: it is absolute, so different nodes of small meshes are matched, and on flat meshes the search looks out of the plane for much less than the tolerance (C128_place_violated, C128_find_violated)."
  },
  {
   "property": "C129",
   "status": "partial",
   "theorems": [
    "Verif.MergeGen.C129_cylinder_partial",
    "Verif.MergeGen.C129_half_partial",
    "Verif.MergeGen.C129_answer_partial",
    "Verif.MergeGen.C129_extruded_partial",
    "Verif.MergeGen.C129_ids_partial",
    "Verif.MergeGen.C129_violated"
   ],
   "note": "Proved for positive inner radius, different vertices farther apart than the tolerance of merge, and a domain id other than 1, 2, 3, 4 and the boundary ids. The full statement is refuted (C129_violated): the ids 1-4 are used for the edges between blocks, and C129_ids_partial shows that exactly these domain ids fail."
  },
  {
   "property": "C130",
   "status": "partial",
   "theorems": [
    "Verif.ArrOwn.C130_programs_partial",
    "Verif.ArrOwn.C130_access_partial",
    "Verif.ArrOwn.C130_moved_violated",
    "Verif.ArrOwn.C130_move_assigned_violated",
    "Verif.ArrOwn.C130_input_violated",
    "Verif.ArrOwn.C130_aligned_violated",
    "Verif.ArrOwn.C130_violated"
   ],
   "note": "Proved: programs that use arrays moved from only as targets of assignments, and make none from single-pass ranges or (unless over-aligned) with explicit alignment, get what lists give. False otherwise: size() of an array moved from stays while the data is null; a single-pass range is exhausted by counting; aligned memory is freed by the wrong function."
  },
  {
   "property": "C131",
   "status": "partial",
   "theorems": [
    "Verif.WeakC.C131_get",
    "Verif.WeakC.C131_contains",
    "Verif.WeakC.C131_unique_partial",
    "Verif.WeakC.C131_expired_violated",
    "Verif.WeakC.C131_second_violated",
    "Verif.WeakC.C131_violated"
   ],
   "note": "Proved: what get gives at any time, which keys are contained, and one living object per key for get-or-emplace programs. False: contains(k) holds for expired entries; emplace for a key with a living object makes a second one."
  },
  {
   "property": "C132",
   "status": "proved",
   "theorems": [
    "Verif.CrsFill.C132_graph",
    "Verif.CrsFill.C132_maps"
   ],
   "note": "What Tpetra does with the maps, capacities and entries is not modelled beyond rejecting entries outside of them."
  },
  {
   "property": "C133",
   "status": "partial",
   "theorems": [
    "Verif.Restart.C133_mesh",
    "Verif.Restart.C133_loads",
    "Verif.Restart.C133_values_partial",
    "Verif.Restart.C133_all_fields",
    "Verif.Restart.C133_order",
    "Verif.Restart.C133_answer_partial",
    "Verif.Restart.C133_direct",
    "Verif.Restart.C133_reordering_violated"
   ],
   "note": "mesh read, values loaded, answer after the restart, loading on the same ranks; for distributions with reordered ranks only if ghosts keep their order (otherwise refuted, as C38 and C113)"
  },
  {
   "property": "C134",
   "status": "partial",
   "theorems": [
    "Verif.Lookup.C134_square",
    "Verif.Lookup.C134_cube",
    "Verif.Lookup.C134_found_partial",
    "Verif.Lookup.C134_one_rank_partial",
    "Verif.Lookup.C134_interleaved_violated",
    "Verif.Lookup.C134_boundary_violated",
    "Verif.Lookup.C134_restart_violated"
   ],
   "note": "proved for elements of domains of generated squares and cubes, and of any mesh sorted by id whose boundary ids lie apart; false for interleaved ids, for boundary elements, and after save and load"
  },
  {
   "property": "C135",
   "status": "partial",
   "theorems": [
    "Verif.Resume.C135_fields",
    "Verif.Resume.C135_loads",
    "Verif.Resume.C135_runs",
    "Verif.Resume.C135_resume_partial",
    "Verif.Resume.C135_session_partial",
    "Verif.Resume.C135_violated"
   ],
   "note": "False without a condition: prescribed Dirichlet values are not saved, so a program which sets them once, before the stop, goes on with zeros (C135_violated). Proved for programs which set them again after the stop. One stop (C135_resume_partial) and any number of them (C135_session_partial); ranks not reordered unless ghosts keep their order (C38)."
  },
  {
   "property": "C136",
   "status": "partial",
   "theorems": [
    "Verif.Topo.C136_counts",
    "Verif.Topo.C136_nodes",
    "Verif.Topo.C136_once_partial",
    "Verif.Topo.C136_violated",
    "Verif.Topo.C136_all",
    "Verif.Topo.C136_assembly_partial",
    "Verif.Topo.C136_unknown_violated"
   ],
   "note": "False where two NUMA nodes are near the same cores (C136_violated): every core is counted once per such node, exactly (C136_counts). Proved where no unit is near two nodes. hwloc's own functions are modelled by their documentation; failures of its calls, which throw, are left out."
  },
  {
   "property": "C137",
   "status": "partial",
   "theorems": [
    "Verif.Folded.C137_corners",
    "Verif.Folded.C137_mirror",
    "Verif.Folded.C137_between_partial",
    "Verif.Folded.C137_folded_violated",
    "Verif.Folded.C137_violated",
    "Verif.Folded.C137_integral_violated",
    "Verif.Folded.C137_volume_partial",
    "Verif.Folded.C137_volume_violated"
   ],
   "note": "False for elements folded near a corner (C137_folded_violated, for every order of the rule) and for integrals (C137_integral_violated). Proved: mirrored elements of every type are refused, quadrilaterals are sound between the quadrature points and have positive area, good quadrilaterals are taken. No such statement for hexahedra between the points. Exact arithmetic. Segments and quadrilaterals which are taken have positive volume, hexahedra if the order is at least two (C137_volume_partial); with one point a hexahedron of negative volume is taken (C137_volume_violated)."
  },
  {
   "property": "C138",
   "status": "partial",
   "theorems": [
    "Verif.Entry.C138_check",
    "Verif.Entry.C138_whole",
    "Verif.Entry.C138_copy",
    "Verif.Entry.C138_parts_partial",
    "Verif.Entry.C138_made",
    "Verif.Entry.C138_parts_violated",
    "Verif.Entry.C138_gap_violated"
   ],
   "note": "Whole meshes: proved. Parts: exact condition for passing the check; the statement is false (violated by two quadrilaterals), as is that of missing node numbers."
  },
  {
   "property": "C139",
   "status": "partial",
   "theorems": [
    "Verif.ExpRun.C139_defined",
    "Verif.ExpRun.C139_files",
    "Verif.ExpRun.C139_schedule",
    "Verif.ExpRun.C139_finishes",
    "Verif.ExpRun.C139_content_partial",
    "Verif.ExpRun.C139_violated",
    "Verif.ExpRun.C139_throw_partial",
    "Verif.ExpRun.C139_throw_violated",
    "Verif.ExpRun.C139_ranks",
    "Verif.ExpRun.C139_collection_partial",
    "Verif.ExpRun.C139_read"
   ],
   "note": "Refinement to sequential writing, definedness, independence of the schedule and progress are proved in full, for one rank and for all ranks interleaved on one disk; what a reader finds in a piece file follows (C139_read). Partial because exactness fails when a shorter document is exported under the same name (files are not truncated) and because an export which throws during encoding has already replaced the parallel file."
  },
  {
   "property": "C140",
   "status": "partial",
   "theorems": [
    "Verif.RankThrow.C140_hang",
    "Verif.RankThrow.C140_violated",
    "Verif.RankThrow.C140_all_partial",
    "Verif.RankThrow.C140_before",
    "Verif.RankThrow.C140_needed"
   ],
   "note": "false as stated: only the first rank calls the generator, the others wait for their part forever (C140_hang for every number of ranks and program, witness C140_violated); proved: where all ranks throw before the same operation all end and nothing is left under way; operations before the first exception complete; which operations block"
  },
  {
   "property": "C141",
   "status": "partial",
   "theorems": [
    "Verif.GmshGen.C141_any_order",
    "Verif.GmshGen.C141_mesh",
    "Verif.GmshGen.C141_text_partial",
    "Verif.GmshGen.C141_violated"
   ],
   "note": "proved for the contents of every conforming file (C141_mesh), also when the mesh is converted to any order given valid geometry (C141_any_order), and for its text when no node block is empty (C141_text_partial); false otherwise, as C86 (C141_violated)"
  },
  {
   "property": "C142",
   "status": "proved",
   "theorems": [
    "Verif.ParFor.C142_result",
    "Verif.ParFor.C142_any_moment",
    "Verif.ParFor.C142_once",
    "Verif.ParFor.C142_ends",
    "Verif.ParFor.C142_needed"
   ],
   "note": "all splits, interleavings and moments; kernels are functions of their element; the scheduler's guarantees are assumed (see DESIGN.md)"
  },
  {
   "property": "C143",
   "status": "partial",
   "theorems": [
    "Verif.Dual.C143_line",
    "Verif.Dual.C143_square",
    "Verif.Dual.C143_cube",
    "Verif.Dual.C143_dual_partial",
    "Verif.Dual.C143_refused",
    "Verif.Dual.C143_violated",
    "Verif.Dual.C143_overflow",
    "Verif.Dual.C143_conversion"
   ],
   "note": "proved for all meshes with at least one node and at most as many as the greatest idx_t (C143_dual_partial), with the use in the conversion (C143_conversion), for generated lines, squares and cubes of any size the graph is computed and the mesh of any order made with it is ready (C143_line, C143_square, C143_cube) and the refusals (C143_refused); false for an empty mesh, where the last element of an empty view is taken (C143_violated), and for one node more than the greatest idx_t, which the checks let pass (C143_overflow)"
  }
 ]
}