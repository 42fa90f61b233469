{
 "claims": [
  {
   "property": "C01",
   "status": "proved",
   "theorems": [
    "Verif.MultiId.C01_construction_defined_iff",
    "Verif.MultiId.C01_vt_roundtrip",
    "Verif.MultiId.C01_eq_iff_same_numbers",
    "Verif.MultiId.C01_lt_iff_shortlex",
    "Verif.MultiId.C01_strict_total_order"
   ],
   "note": ""
  },
  {
   "property": "C02",
   "status": "proved",
   "theorems": [
    "Verif.MultiId.C02_history_refines",
    "Verif.MultiId.C02_equal_ids_equal_hash"
   ],
   "note": ""
  },
  {
   "property": "C03",
   "status": "proved",
   "theorems": [
    "Verif.IdSet.C03_unique",
    "Verif.IdSet.C03_persistent",
    "Verif.IdSet.C03_never_reused",
    "Verif.IdSet.C03_all_have_ids",
    "Verif.IdSet.C03_set_at_once"
   ],
   "note": ""
  },
  {
   "property": "C04",
   "status": "proved",
   "theorems": [
    "Verif.RefElem.C04_element_id",
    "Verif.RefElem.C04_facet_id",
    "Verif.RefElem.C04_facet_id_eq_iff",
    "Verif.RefElem.C04_edge_id",
    "Verif.RefElem.C04_subId_facet_2d",
    "Verif.RefElem.C04_subId_vertex_2d",
    "Verif.RefElem.C04_subId_facet_3d",
    "Verif.RefElem.C04_subId_edge_3d",
    "Verif.RefElem.C04_subId_vertex_3d"
   ],
   "note": ""
  },
  {
   "property": "C05",
   "status": "proved",
   "theorems": [
    "Verif.IndexSet.C05_elements",
    "Verif.IndexSet.C05_vertices",
    "Verif.IndexSet.C05_facets",
    "Verif.IndexSet.C05_edges"
   ],
   "note": ""
  },
  {
   "property": "C06",
   "status": "proved",
   "theorems": [
    "Verif.IndexSet.C06_facets",
    "Verif.IndexSet.C06_vertices",
    "Verif.IndexSet.C06_edges"
   ],
   "note": ""
  },
  {
   "property": "C07",
   "status": "proved",
   "theorems": [
    "Verif.RefElem.C07_cgalIndex_unique",
    "Verif.RefElem.C07_no_wraparound",
    "Verif.RefElem.C07_facet_conversions_inverse",
    "Verif.RefElem.C07_facet_same_vertices"
   ],
   "note": ""
  },
  {
   "property": "C08",
   "status": "proved",
   "theorems": [
    "Verif.RefElem.C08_edge_vertices",
    "Verif.RefElem.C08_edge_roundtrip"
   ],
   "note": ""
  },
  {
   "property": "C09",
   "status": "proved",
   "theorems": [
    "Verif.RefElem.C09_conforming_2d",
    "Verif.RefElem.C09_conforming_3d",
    "Verif.RefElem.C09_facet_corners_agree",
    "Verif.RefElem.C09_interface_corners",
    "Verif.RefElem.C09_inside_outside_2d",
    "Verif.RefElem.C09_inside_outside_3d"
   ],
   "note": ""
  },
  {
   "property": "C10",
   "status": "proved",
   "theorems": [
    "Verif.Normals.C10_normal_2d",
    "Verif.Normals.C10_closed_2d",
    "Verif.Normals.C10_opposite_2d",
    "Verif.Normals.C10_normal_3d",
    "Verif.Normals.C10_gram_symmetric",
    "Verif.Normals.C10_closed_3d",
    "Verif.Normals.C10_opposite_3d",
    "Verif.Normals.C10_inward_if_negative",
    "Verif.Normals.C10_unit",
    "Verif.Normals.C10_unit_2d"
   ],
   "note": ""
  },
  {
   "property": "C11",
   "status": "proved",
   "theorems": [
    "Verif.Normals.C11_direction",
    "Verif.Normals.C11_unit",
    "Verif.Normals.C11_segment"
   ],
   "note": "Over an ordered field (direction) and the reals (unit normal). The length of integrationOuterNormal is C100."
  },
  {
   "property": "C12",
   "status": "proved",
   "theorems": [
    "Verif.SubEntities.C12_bulk",
    "Verif.SubEntities.C12_caching",
    "Verif.SubEntities.C12_interface_element"
   ],
   "note": "Proved for all dimensions and codimensions the code has."
  },
  {
   "property": "C13",
   "status": "proved",
   "theorems": [
    "Verif.Factory.C13_neighbours_2d",
    "Verif.Factory.C13_boundary_2d",
    "Verif.Factory.C13_neighbours_3d",
    "Verif.Factory.C13_boundary_3d",
    "Verif.Factory.C13_infinite_orientation_2d",
    "Verif.Factory.C13_infinite_orientation_3d"
   ],
   "note": ""
  },
  {
   "property": "C14",
   "status": "proved",
   "theorems": [
    "Verif.Factory.C14_positive_2d"
   ],
   "note": ""
  },
  {
   "property": "C15",
   "status": "proved",
   "theorems": [
    "Verif.Segments.C15_duplicate_rejected",
    "Verif.Segments.C15_numbered",
    "Verif.Segments.C15_distinct"
   ],
   "note": ""
  },
  {
   "property": "C16",
   "status": "proved",
   "theorems": [
    "Verif.Segments.C16_domain_2d",
    "Verif.Segments.C16_domain_3d",
    "Verif.Segments.C16_characterisation",
    "Verif.Segments.C16_separated",
    "Verif.Segments.C16_vertices",
    "Verif.Segments.C16_marker"
   ],
   "note": ""
  },
  {
   "property": "C17",
   "status": "partial",
   "theorems": [
    "Verif.Segments.C17_duplicate_false",
    "Verif.Segments.C17_never_rejected",
    "Verif.Segments.C17_numbered_partial"
   ],
   "note": "False as stated: duplicates are never rejected (C17_never_rejected) and shift the numbering (C17_duplicate_false). Consecutive without duplicates (C17_numbered_partial)."
  },
  {
   "property": "C18",
   "status": "proved",
   "theorems": [
    "Verif.Gmsh.C18_line",
    "Verif.Gmsh.C18_file",
    "Verif.Gmsh.C18_corner",
    "Verif.Gmsh.C18_accepted"
   ],
   "note": "Files as lists of tokenised lines."
  },
  {
   "property": "C19",
   "status": "proved",
   "theorems": [
    "Verif.InterfaceIter.C19_interior",
    "Verif.InterfaceIter.C19_boundary",
    "Verif.InterfaceIter.C19_only_segments",
    "Verif.InterfaceIter.C19_fresh"
   ],
   "note": "Exact number of visits in C19_interior, C19_boundary for all grids; C19_fresh for all meshes, orders and contents of infinite elements."
  },
  {
   "property": "C20",
   "status": "proved",
   "theorems": [
    "Verif.InterfaceIter.C20_vertices"
   ],
   "note": ""
  },
  {
   "property": "C21",
   "status": "proved",
   "theorems": [
    "Verif.InterfaceIndexSet.C21_neighbours",
    "Verif.InterfaceIndexSet.C21_unique",
    "Verif.InterfaceIndexSet.C21_ghost"
   ],
   "note": ""
  },
  {
   "property": "C22",
   "status": "proved",
   "theorems": [
    "Verif.InterfaceIndexSet.C22_elements",
    "Verif.InterfaceIndexSet.C22_vertices",
    "Verif.InterfaceIndexSet.C22_edges"
   ],
   "note": ""
  },
  {
   "property": "C23",
   "status": "proved",
   "theorems": [
    "Verif.Marks.C23_bulk",
    "Verif.Marks.C23_markElements"
   ],
   "note": ""
  },
  {
   "property": "C24",
   "status": "proved",
   "theorems": [
    "Verif.Components.C24_terminates",
    "Verif.Components.C24_linked",
    "Verif.Components.C24_cycles"
   ],
   "note": ""
  },
  {
   "property": "C25",
   "status": "proved",
   "theorems": [
    "Verif.ConnComp.C25_component",
    "Verif.ConnComp.C25_update"
   ],
   "note": ""
  },
  {
   "property": "C26",
   "status": "proved",
   "theorems": [
    "Verif.InterfaceOps.C26_refinement",
    "Verif.InterfaceOps.C26_split",
    "Verif.InterfaceOps.C26_undefined_3d"
   ],
   "note": "2D, for every history of calls (C26_refinement) and for every state in which the new id is unused (C26_split). In 3D insertInInterface_ reads past the end of the id vector for every edge (C26_undefined_3d)."
  },
  {
   "property": "C27",
   "status": "proved",
   "theorems": [
    "Verif.InterfaceOps.C27_request",
    "Verif.InterfaceOps.C27_join",
    "Verif.InterfaceOps.C27_connected"
   ],
   "note": "2D; in 3D the code throws. C27_request for states reached by careful histories (as in C111_facets_partial), in which segments are facets; the host grid enters by its contract."
  },
  {
   "property": "C28",
   "status": "proved",
   "theorems": [
    "Verif.Adapt.C28_result",
    "Verif.Adapt.C28_changed",
    "Verif.Adapt.C28_result_changed"
   ],
   "note": "Requests end with an outcome (vertex inserted, edge gone, extension given up); the stronger claim is C180."
  },
  {
   "property": "C29",
   "status": "proved",
   "theorems": [
    "Verif.Adapt.C29_once",
    "Verif.Adapt.C29_requested",
    "Verif.Adapt.C29_marked",
    "Verif.Adapt.C29_interface_marked",
    "Verif.Adapt.C29_interface_mark_set",
    "Verif.Adapt.C29_split_once"
   ],
   "note": ""
  },
  {
   "property": "C30",
   "status": "proved",
   "theorems": [
    "Verif.InterfaceOps.C30_vertices"
   ],
   "note": "2D, explicit factory. The host grid enters by contracts for insertion and removal."
  },
  {
   "property": "C31",
   "status": "proved",
   "theorems": [
    "Verif.Movement.C31_returned",
    "Verif.Movement.C31_invalid_before",
    "Verif.Movement.C31_unchanged"
   ],
   "note": "Exact arithmetic (an ordered field); exceptions and rounding are C112."
  },
  {
   "property": "C32",
   "status": "proved",
   "theorems": [
    "Verif.Movement.C32_result",
    "Verif.Movement.C32_3d"
   ],
   "note": ""
  },
  {
   "property": "C33",
   "status": "proved",
   "theorems": [
    "Verif.Movement.C33_vertices",
    "Verif.Movement.C33_interface",
    "Verif.Movement.C33_short"
   ],
   "note": ""
  },
  {
   "property": "C34",
   "status": "proved",
   "theorems": [
    "Verif.Ranks.C34_owner",
    "Verif.Ranks.C34_contiguous",
    "Verif.Ranks.C34_balanced",
    "Verif.Ranks.C34_nonempty",
    "Verif.Ranks.C34_iteration",
    "Verif.Ranks.C34_serial"
   ],
   "note": "For all numbers of processes and elements whose product fits std::size_t; also for iteration over interior elements with fewer elements than processes. With one process everything is interior (C34_serial). Even distribution only in 2D; the claim for 3D is C158."
  },
  {
   "property": "C35",
   "status": "proved",
   "theorems": [
    "Verif.Parallel.C35_interior",
    "Verif.Parallel.C35_interface_ghost",
    "Verif.Parallel.C35_interface_interior",
    "Verif.Parallel.C35_ghost",
    "Verif.Parallel.C35_links",
    "Verif.Parallel.C35_links_proper",
    "Verif.Parallel.C35_facets",
    "Verif.Parallel.C35_vertices"
   ],
   "note": "The clearing of maps runs over an array of maps; it is assumed to clear only maps (see C114_clear_false)."
  },
  {
   "property": "C36",
   "status": "proved",
   "theorems": [
    "Verif.Parallel.C36_exchange",
    "Verif.Parallel.Network.C36_schedule",
    "Verif.Parallel.Network.C36_progress",
    "Verif.Parallel.C36_packed",
    "Verif.Parallel.C36_unpacked",
    "Verif.Parallel.C36_forward",
    "Verif.Parallel.C36_backward",
    "Verif.Parallel.C36_all",
    "Verif.Parallel.C36_linked"
   ],
   "note": "MPI order of messages is assumed."
  },
  {
   "property": "C37",
   "status": "proved",
   "theorems": [
    "Verif.Parallel.C37_exchange",
    "Verif.Parallel.C37_packed",
    "Verif.Parallel.C37_unpacked",
    "Verif.Parallel.C37_same",
    "Verif.Parallel.C37_forward",
    "Verif.Parallel.C37_backward",
    "Verif.Parallel.C37_all",
    "Verif.Parallel.C37_complete"
   ],
   "note": "All meshes with at most two processes at each interface vertex, all schedules (C37_exchange). Junctions of three processes are C154."
  },
  {
   "property": "C38",
   "status": "proved",
   "theorems": [
    "Verif.ObjStream.C38_queue",
    "Verif.ObjStream.C38_round_trip",
    "Verif.ObjStream.C38_end_debug",
    "Verif.ObjStream.C38_unchecked"
   ],
   "note": ""
  },
  {
   "property": "C39",
   "status": "proved",
   "theorems": [
    "Verif.ObjStream.C39_owner"
   ],
   "note": "All such sequences, with and without assertions (C39_owner)."
  },
  {
   "property": "C40",
   "status": "proved",
   "theorems": [
    "Verif.Clip.C40_inside",
    "Verif.Clip.C40_kept",
    "Verif.Clip.C40_exact",
    "Verif.Clip.C40_intersection",
    "Verif.Clip.C40_triangles",
    "Verif.Clip.C40_unchanged",
    "Verif.Clip.C40_convex"
   ],
   "note": "For all polygons: result inside the hull of the subject and left of all clip edges up to the tolerance (C40_inside); convex subjects lose nothing (C40_kept); without tolerance the result is exactly the intersection (C40_exact, C40_intersection, C40_triangles); subjects inside are returned up to rotation of the list (C40_unchanged). Exact arithmetic over any ordered field."
  },
  {
   "property": "C41",
   "status": "proved",
   "theorems": [
    "Verif.Clip.C41_triangle",
    "Verif.Clip.C41_rotate",
    "Verif.Clip.C41_reverse",
    "Verif.Clip.C41_translate",
    "Verif.Clip.C41_chord",
    "Verif.Clip.C41_fan",
    "Verif.Clip.C41_fan_volume",
    "Verif.Clip.C41_cut",
    "Verif.Clip.C41_monotone",
    "Verif.Clip.C41_cutset_bounds",
    "Verif.Clip.C41_measure",
    "Verif.Clip.C41_cutset_measure",
    "Verif.Clip.C41_cutset_tolerance"
   ],
   "note": "C41_cutset_measure: exactly, without tolerances; C41_cutset_tolerance, C41_cutset_bounds: with the tolerances of the code."
  },
  {
   "property": "C42",
   "status": "proved",
   "theorems": [
    "Verif.Clip.C42_on_both",
    "Verif.Clip.C42_unique",
    "Verif.Clip.C42_no_division_by_zero"
   ],
   "note": "Exact arithmetic over any ordered field; also uniqueness, and the clipping loop never divides by zero."
  },
  {
   "property": "C43",
   "status": "proved",
   "theorems": [
    "Verif.Distance.C43_segment",
    "Verif.Distance.C43_minimum",
    "Verif.Distance.C43_zero",
    "Verif.Distance.C43_maximum",
    "Verif.Distance.C43_element"
   ],
   "note": "Over the reals; 1e100 if there are no interface segments."
  },
  {
   "property": "C44",
   "status": "proved",
   "theorems": [
    "Verif.Indicator.C44_coarsen",
    "Verif.Indicator.C44_refine",
    "Verif.Indicator.C44_3d",
    "Verif.Indicator.C44_limits",
    "Verif.Indicator.C44_construct",
    "Verif.Indicator.C44_init",
    "Verif.Indicator.C44_segment",
    "Verif.Indicator.C44_init_stable",
    "Verif.Indicator.C44_unit"
   ],
   "note": ""
  },
  {
   "property": "C45",
   "status": "proved",
   "theorems": [
    "Verif.LongestEdge.C45_longest",
    "Verif.LongestEdge.C45_order",
    "Verif.LongestEdge.C45_ties_false"
   ],
   "note": "A longest edge and its center for segments, triangles and tetrahedra; independent of the storage order if the longest edge is unique; C45_ties_false shows that with ties the point does depend on the order (the statement allows this). Lengths are elements of an ordered field."
  },
  {
   "property": "C46",
   "status": "partial",
   "theorems": [
    "Verif.LongestEdge.C46_false",
    "Verif.LongestEdge.C46_tolerance_false",
    "Verif.LongestEdge.C46_conflict",
    "Verif.LongestEdge.C46_partial"
   ],
   "note": "False: C46_false (two vertices before each other), C46_tolerance_false (incomparability not transitive for equal levels); C46_conflict gives the exact condition. Holds for equal levels and constraints and sums that are equal or differ by more than 1e-14 (C46_partial)."
  },
  {
   "property": "C47",
   "status": "proved",
   "theorems": [
    "Verif.Curvature.C47_exact",
    "Verif.Curvature.C47_flat",
    "Verif.Curvature.C47_determined",
    "Verif.Curvature.C47_three_points",
    "Verif.Curvature.C47_operator",
    "Verif.Curvature.C47_element"
   ],
   "note": "Exact in every dimension and for every number of points: if the points lie on a sphere and the determinant exceeds 2^-52, centre and radius are those of the sphere (C47_exact, C47_determined, C47_operator for vertices, C47_element for elements of a closed interface); points in a plane give an infinite radius (C47_flat). What fails is C147. Rounding is not modelled."
  },
  {
   "property": "C48",
   "status": "proved",
   "theorems": [
    "Verif.Container.C48_covered",
    "Verif.Container.C48_kept",
    "Verif.Container.C48_write",
    "Verif.Container.C48_twice",
    "Verif.Container.C48_resize"
   ],
   "note": "The base class of dune-grid is not in the repository; its behaviour is an assumption of the model."
  },
  {
   "property": "C49",
   "status": "proved",
   "theorems": [
    "Verif.Threads.C49_serial",
    "Verif.Threads.C49_off_interface"
   ],
   "note": "Sequentially consistent memory. Calls that overlap are C181."
  },
  {
   "property": "C50",
   "status": "partial",
   "theorems": [
    "Verif.InterfaceIter.C50_ignored_false",
    "Verif.InterfaceIter.C50_not_visited_false",
    "Verif.InterfaceIter.C50_interior",
    "Verif.InterfaceIter.C50_all_partial"
   ],
   "note": "False: the option is ignored (C50_ignored_false, C50_not_visited_false). Without boundary interface segments all are visited (C50_all_partial)."
  },
  {
   "property": "C51",
   "status": "proved",
   "theorems": [
    "Verif.InterfaceIndexSet.C51_numbered"
   ],
   "note": "2D and 3D, all interfaces."
  },
  {
   "property": "C52",
   "status": "proved",
   "theorems": [
    "Verif.Solve.C52_converged",
    "Verif.Solve.C52_fixpoint"
   ],
   "note": ""
  },
  {
   "property": "C53",
   "status": "proved",
   "theorems": [
    "Verif.MoveMesh.C53_bounds",
    "Verif.MoveMesh.C53_checked",
    "Verif.MoveMesh.C53_marked",
    "Verif.MoveMesh.C53_twice"
   ],
   "note": ""
  },
  {
   "property": "C54",
   "status": "proved",
   "theorems": [
    "Verif.InterfaceOps.C54_agree",
    "Verif.InterfaceOps.C54_added"
   ],
   "note": "After any sequence of addInterface in any dimension (C54_added), after any history in 2D (C54_agree)."
  },
  {
   "property": "C55",
   "status": "proved",
   "theorems": [
    "Verif.InterfaceIter.C55_same",
    "Verif.InterfaceIter.C55_created",
    "Verif.InterfaceIter.C55_facet"
   ],
   "note": "C55_created for grids made by the factory, C55_same for any grid with different insertion numbers, C55_facet in every case."
  },
  {
   "property": "C56",
   "status": "proved",
   "theorems": [
    "Verif.Marks.C56_false_means_nothing_vanishes",
    "Verif.Marks.C56_exactly",
    "Verif.Marks.C56_after_postAdapt",
    "Verif.Marks.C56_documented_false"
   ],
   "note": "The comment in the header says the opposite of what the function does; C56_documented_false shows that the documented answer is not the one returned."
  },
  {
   "property": "C57",
   "status": "proved",
   "theorems": [
    "Verif.ConnComp.C57_in_order",
    "Verif.ConnComp.C57_exact",
    "Verif.ConnComp.C57_linked",
    "Verif.ConnComp.C57_query"
   ],
   "note": "C57_exact is the exact condition, also for requests at boundary edges, whose zones contain infinite cells; C57_linked the case of linked requests, C57_query the query in release builds; C57_in_order needs no connected zones. Orders in which a component comes too late are C182, debug builds C185, infinite cells with old marks C108."
  },
  {
   "property": "C58",
   "status": "proved",
   "theorems": [
    "Verif.Adapt.C58_component"
   ],
   "note": "All lists of requests in which no extension is given up."
  },
  {
   "property": "C59",
   "status": "proved",
   "theorems": [
    "Verif.Adapt.C59_own_edge",
    "Verif.Adapt.C59_interface"
   ],
   "note": "Which edge a stored handle designates after a split is left open (CGAL): the theorems hold for all choices. Bulk requests and a second adapt() without postAdapt() are C183."
  },
  {
   "property": "C60",
   "status": "proved",
   "theorems": [
    "Verif.Movement.C60_positive"
   ],
   "note": "Shifts, positions and volumes in an ordered field. The other situations are C184."
  },
  {
   "property": "C61",
   "status": "proved",
   "theorems": [
    "Verif.Movement.C61_interface",
    "Verif.Movement.C61_vertex"
   ],
   "note": "All grids, shifts and states. That the stored flag may be the one for the moved positions is C151."
  },
  {
   "property": "C62",
   "status": "partial",
   "theorems": [
    "Verif.Ranks.C62_migrates_false",
    "Verif.Ranks.C62_kept_partial"
   ],
   "note": "False: ranks are computed anew from positions (C62_migrates_false); true only while number and order of the elements do not change (C62_kept_partial)."
  },
  {
   "property": "C63",
   "status": "proved",
   "theorems": [
    "Verif.Indicator.C63_halved",
    "Verif.Indicator.C63_ratio"
   ],
   "note": "It depends on the radius ratio 30."
  },
  {
   "property": "C64",
   "status": "proved",
   "theorems": [
    "Verif.LongestEdge.C64_interface"
   ],
   "note": ""
  },
  {
   "property": "C65",
   "status": "proved",
   "theorems": [
    "Verif.Container.C65_vanished",
    "Verif.Container.C65_middle",
    "Verif.Container.C65_middle_interface",
    "Verif.Container.C65_distinct",
    "Verif.Container.C65_separate"
   ],
   "note": "Three-dimensional grids do not create intermediate elements."
  },
  {
   "property": "C66",
   "status": "proved",
   "theorems": [
    "Verif.Container.C66_entries",
    "Verif.Container.C66_new"
   ],
   "note": ""
  },
  {
   "property": "C67",
   "status": "proved",
   "theorems": [
    "Verif.Solve.C67_exact",
    "Verif.Solve.C67_fixpoint",
    "Verif.Solve.C67_least_squares",
    "Verif.Solve.C67_pass"
   ],
   "note": ""
  },
  {
   "property": "C68",
   "status": "proved",
   "theorems": [
    "Verif.Solve.C68_converged",
    "Verif.Solve.C68_callback",
    "Verif.Solve.C68_affine",
    "Verif.Solve.C68_initial_false"
   ],
   "note": "The Jacobian class (C++ generated at run time) is an arbitrary function. C68_initial_false: the initial residual is never looked at."
  },
  {
   "property": "C69",
   "status": "proved",
   "theorems": [
    "Verif.Solve.C69_calls",
    "Verif.Solve.C69_last"
   ],
   "note": ""
  },
  {
   "property": "C70",
   "status": "proved",
   "theorems": [
    "Verif.Trace.C70_skeleton_2d",
    "Verif.Trace.C70_skeleton_3d",
    "Verif.Trace.C70_sides_2d"
   ],
   "note": "Over an ordered field, with AffineGeometry's pseudo inverse; the triangulation is only assumed to mirror facets and to have distinct ids (Grid.Valid, shown for a concrete grid)."
  },
  {
   "property": "C71",
   "status": "proved",
   "theorems": [
    "Verif.Trace.C71_zero",
    "Verif.Trace.C71_one",
    "Verif.Trace.C71_history"
   ],
   "note": ""
  },
  {
   "property": "C72",
   "status": "proved",
   "theorems": [
    "Verif.Trace.C72_boundary",
    "Verif.Trace.C72_trace_2d",
    "Verif.Trace.C72_trace_3d"
   ],
   "note": "For host facets of elements as built by the constructor of interface elements, including those on infinite cells."
  },
  {
   "property": "C73",
   "status": "proved",
   "theorems": [
    "Verif.Trace.C73_side",
    "Verif.Trace.C73_normal_2d",
    "Verif.Trace.C73_normal_3d"
   ],
   "note": "C73_side; C73_normal_2d and C73_normal_3d for positively oriented elements, before normalisation. That dune-fem's '+' is the same side is not modelled."
  },
  {
   "property": "C74",
   "status": "proved",
   "theorems": [
    "Verif.Trace.C74_vertices",
    "Verif.Trace.C74_interface_2d",
    "Verif.Trace.C74_interface_3d",
    "Verif.Trace.C74_continuous_2d",
    "Verif.Trace.C74_continuous_3d",
    "Verif.Trace.C74_defined"
   ],
   "note": "For the C++ functions before the interpolation into the Lagrange space; C74_defined: there must be a shift for every interface vertex, otherwise the access is out of range (none)."
  },
  {
   "property": "C75",
   "status": "proved",
   "theorems": [
    "Verif.Gradient.C75_values",
    "Verif.Gradient.C75_gradient",
    "Verif.Gradient.C75_reference_partial",
    "Verif.Gradient.C75_reference_false"
   ],
   "note": "Proved for the class Distance, which is what distance(grid) gives the user. The older class DistanceFunction in utility.hh (not registered by the shipped modules) returns the gradient in reference coordinates: C75_reference_false, right only on translated reference elements."
  },
  {
   "property": "C76",
   "status": "proved",
   "theorems": [
    "Verif.Jacobian.C76_assembleB",
    "Verif.Jacobian.C76_exact"
   ],
   "note": "The residual is any function of the degrees of freedom that only sees local ones."
  },
  {
   "property": "C77",
   "status": "proved",
   "theorems": [
    "Verif.Jacobian.C77_assembleC",
    "Verif.Jacobian.C77_discontinuous"
   ],
   "note": "C77_assembleC gives the block for every space."
  },
  {
   "property": "C78",
   "status": "proved",
   "theorems": [
    "Verif.Jacobian.C78_restored",
    "Verif.Jacobian.C78_fresh"
   ],
   "note": ""
  },
  {
   "property": "C79",
   "status": "proved",
   "theorems": [
    "Verif.Jacobian.C79_solve",
    "Verif.Jacobian.C79_again"
   ],
   "note": "The linear solver (UMFPACK) is any function that solves the system it is given."
  },
  {
   "property": "C80",
   "status": "proved",
   "theorems": [
    "Verif.Clip.C80_measure",
    "Verif.Clip.C80_tolerance",
    "Verif.Clip.C80_partition"
   ],
   "note": ""
  },
  {
   "property": "C81",
   "status": "proved",
   "theorems": [
    "Verif.Transfer.C81_calls",
    "Verif.Transfer.C81_any_handle",
    "Verif.Transfer.C81_pairs",
    "Verif.Transfer.C81_initialize"
   ],
   "note": "Closed form of all calls, for every handle, every cut and every list of leaves. preAdapt, adapt and postAdapt are modelled in other modules."
  },
  {
   "property": "C82",
   "status": "proved",
   "theorems": [
    "Verif.Transfer.C82_unchanged",
    "Verif.Transfer.C82_value",
    "Verif.Transfer.C82_average",
    "Verif.Transfer.C82_conservation",
    "Verif.Transfer.C82_bounds"
   ],
   "note": "For all triangulations of the same region; the handle is a model of dune-fem's constant one."
  },
  {
   "property": "C83",
   "status": "proved",
   "theorems": [
    "Verif.Transfer.C83_calls",
    "Verif.Transfer.C83_any_handle",
    "Verif.Transfer.C83_unchanged",
    "Verif.Transfer.C83_split",
    "Verif.Transfer.C83_join",
    "Verif.Transfer.C83_join_straight"
   ],
   "note": ""
  },
  {
   "property": "C84",
   "status": "proved",
   "theorems": [
    "Verif.HoleRemesh.C84_split",
    "Verif.HoleRemesh.C84_sides",
    "Verif.HoleRemesh.C84_glue",
    "Verif.HoleRemesh.C84_glue_throws"
   ],
   "note": "Triangulation of each part is CGAL's."
  },
  {
   "property": "C85",
   "status": "proved",
   "theorems": [
    "Verif.BoundaryIds.C85_dgf",
    "Verif.BoundaryIds.C85_duplicate",
    "Verif.BoundaryIds.C85_unlisted"
   ],
   "note": "C85_unlisted: facets that are not listed get the id of the first face."
  },
  {
   "property": "C86",
   "status": "proved",
   "theorems": [
    "Verif.Implicit.C86_vertices",
    "Verif.Implicit.C86_last",
    "Verif.Implicit.C86_index"
   ],
   "note": ""
  },
  {
   "property": "C87",
   "status": "proved",
   "theorems": [
    "Verif.Implicit.C87_vertices",
    "Verif.Implicit.C87_numbering",
    "Verif.Implicit.C87_corners"
   ],
   "note": "int overflow of the number of vertices and rounding are not modelled."
  },
  {
   "property": "C88",
   "status": "proved",
   "theorems": [
    "Verif.InterfaceFactory.C88_interface",
    "Verif.InterfaceFactory.C88_index"
   ],
   "note": "insertBoundarySegment and getGrid are not modelled."
  },
  {
   "property": "C89",
   "status": "proved",
   "theorems": [
    "Verif.Incident.C89_elements",
    "Verif.Incident.C89_elements_3d",
    "Verif.Incident.C89_facets",
    "Verif.Incident.C89_facets_3d",
    "Verif.Incident.C89_vertices"
   ],
   "note": "CGAL's contract (the circulator runs through the incident cells, facets, vertices, each once) is a hypothesis; such circulators exist for every triangulation (exists_runsCells, exists_runsFacets, exists_runsVertices)."
  },
  {
   "property": "C90",
   "status": "proved",
   "theorems": [
    "Verif.Incident.C90_elements",
    "Verif.Incident.C90_tip"
   ],
   "note": "In 3D isTip is always false."
  },
  {
   "property": "C91",
   "status": "proved",
   "theorems": [
    "Verif.Incident.C91_edge",
    "Verif.Incident.C91_element"
   ],
   "note": "For grids whose segments have flagged vertices."
  },
  {
   "property": "C92",
   "status": "proved",
   "theorems": [
    "Verif.Entity.C92_edges_2d",
    "Verif.Entity.C92_facets_3d",
    "Verif.Entity.C92_edges_3d",
    "Verif.Entity.C92_elements",
    "Verif.Entity.C92_ids_2d",
    "Verif.Entity.C92_ids_3d"
   ],
   "note": ""
  },
  {
   "property": "C93",
   "status": "proved",
   "theorems": [
    "Verif.Entity.C93_seed",
    "Verif.Entity.C93_facet_seed",
    "Verif.Entity.C93_interface_seed",
    "Verif.Entity.C93_invalid",
    "Verif.Entity.C93_copy"
   ],
   "note": ""
  },
  {
   "property": "C94",
   "status": "proved",
   "theorems": [
    "Verif.Entity.C94_geometry",
    "Verif.Entity.C94_rebind",
    "Verif.Entity.C94_area",
    "Verif.Entity.C94_inside"
   ],
   "note": "3D throws."
  },
  {
   "property": "C95",
   "status": "proved",
   "theorems": [
    "Verif.ParSolve.C95_dot",
    "Verif.ParSolve.C95_dot_owners",
    "Verif.ParSolve.C95_norm",
    "Verif.ParSolve.C95_apply",
    "Verif.ParSolve.C95_applyscaleadd"
   ],
   "note": "C95_dot (and C95_dot_owners: only the values on the owners matter), C95_norm, C95_apply, C95_applyscaleadd. Assumed of dune-fem: scalarProductDofs sums owned dofs over all processes, communicate copies from the owner; assumed of the assembly: complete rows on the owner (C96_incomplete_false shows that this is needed). Rounding is not modelled."
  },
  {
   "property": "C96",
   "status": "proved",
   "theorems": [
    "Verif.ParSolve.C96_lockstep",
    "Verif.ParSolve.C96_solve",
    "Verif.ParSolve.C96_rhs",
    "Verif.ParSolve.C96_incomplete_false"
   ],
   "note": "C96_lockstep (every number of steps), C96_solve, C96_rhs (right hand side only right on the owners, for methods that begin with the defect). C96_incomplete_false: without complete rows on the owner the operator is not the global one, so the proviso is needed."
  },
  {
   "property": "C97",
   "status": "partial",
   "theorems": [
    "Verif.ParSolve.C97_unconverged_false",
    "Verif.ParSolve.C97_solution_partial"
   ],
   "note": "False: the result object of the solver is not looked at, so a solve that did not converge returns like one that did (C97_unconverged_false). C97_solution_partial: if the method finds a solution of the global system on one process, then every process gets its part of one, and its own rows are satisfied."
  },
  {
   "property": "C98",
   "status": "proved",
   "theorems": [
    "Verif.Markers.C98_created_2d",
    "Verif.Markers.C98_created_3d"
   ],
   "note": "2D and 3D."
  },
  {
   "property": "C99",
   "status": "proved",
   "theorems": [
    "Verif.Markers.C99_values",
    "Verif.Markers.C99_inherited",
    "Verif.Markers.C99_covered",
    "Verif.Markers.C99_covered_added",
    "Verif.Markers.C99_read"
   ],
   "note": "2D, explicit factory. The host grid enters by contracts."
  },
  {
   "property": "C100",
   "status": "partial",
   "theorems": [
    "Verif.Normals.C100_length_false",
    "Verif.Normals.C100_length_iff"
   ],
   "note": "Refuted: C100_length_false gives a triangle; C100_length_iff: right iff twice the area of the triangle is one."
  },
  {
   "property": "C101",
   "status": "partial",
   "theorems": [
    "Verif.SubEntities.C101_interface_false",
    "Verif.SubEntities.C101_interface_partial"
   ],
   "note": "Refuted: C101_interface_false; C101_interface_partial: the answer is right exactly for cc = 0."
  },
  {
   "property": "C102",
   "status": "partial",
   "theorems": [
    "Verif.Factory.C102_false_3d",
    "Verif.Factory.C102_positive_3d_partial"
   ],
   "note": "Refuted: C102_false_3d; the factory keeps the order, so that C102_positive_3d_partial needs positively oriented input."
  },
  {
   "property": "C103",
   "status": "partial",
   "theorems": [
    "Verif.Segments.C103_consecutive_partial",
    "Verif.Segments.C103_gap_false"
   ],
   "note": "C103_consecutive_partial: if no inner facet was inserted both as interface and as boundary segment; C103_gap_false: otherwise there can be gaps."
  },
  {
   "property": "C104",
   "status": "partial",
   "theorems": [
    "Verif.Gmsh.C104_inside_iff",
    "Verif.Gmsh.C104_outside_false",
    "Verif.Gmsh.C104_node_number_false"
   ],
   "note": "Refuted: C104_outside_false (C104_inside_iff is the exact condition for staying inside) and C104_node_number_false (node numbers are ignored)."
  },
  {
   "property": "C105",
   "status": "partial",
   "theorems": [
    "Verif.InterfaceIter.C105_once_partial",
    "Verif.InterfaceIter.C105_false"
   ],
   "note": "Refuted: elements created by adapt have indeterminate insertion numbers; if they are equal the segment is visited twice, on the boundary possibly not at all (C105_false). C105_once_partial: once if the numbers differ."
  },
  {
   "property": "C106",
   "status": "partial",
   "theorems": [
    "Verif.InterfaceIndexSet.C106_visited_partial",
    "Verif.InterfaceIndexSet.C106_double_false"
   ],
   "note": "C106_visited_partial: if neighbouring bulk elements have different insertion numbers, as in a created grid. C106_double_false: after adapt the (indeterminate) numbers may be equal, then an element is counted twice."
  },
  {
   "property": "C107",
   "status": "partial",
   "theorems": [
    "Verif.Marks.C107_interface_exact",
    "Verif.Marks.C107_interface_partial",
    "Verif.Marks.C107_interface_zero_false"
   ],
   "note": "Refuted: mark(0, e) does not take back an earlier mark (C107_interface_zero_false). C107_interface_exact: the last non-zero mark counts; C107_interface_partial: right if no call passes 0."
  },
  {
   "property": "C108",
   "status": "partial",
   "theorems": [
    "Verif.Components.C108_second_adapt_false"
   ],
   "note": "Refuted: postAdapt does not reset infinite cells, so from the second cycle on requests at the boundary may share a number without being linked (C108_second_adapt_false). It holds for zones of leaf elements by C24_linked and C24_cycles."
  },
  {
   "property": "C109",
   "status": "partial",
   "theorems": [
    "Verif.InterfaceOps.C109_other_vertices",
    "Verif.InterfaceOps.C109_unchanged_partial",
    "Verif.InterfaceOps.C109_tip_false"
   ],
   "note": "Refuted: the segments are erased before their number is checked (C109_tip_false; exact effect in C109_other_vertices). C109_unchanged_partial: right for vertices without segments."
  },
  {
   "property": "C110",
   "status": "partial",
   "theorems": [
    "Verif.Adapt.C110_cleared_partial",
    "Verif.Adapt.C110_cross_false",
    "Verif.Adapt.C110_interface_marks_false",
    "Verif.Adapt.C110_interface_cycle_false"
   ],
   "note": "C110_cleared_partial: postAdapt of the bulk grid clears the queues and the bulk marks. Refuted: interface marks are left (C110_interface_marks_false), a cycle closed by postAdapt of the interface grid keeps the requests (C110_interface_cycle_false), crossings are queued again (C110_cross_false)."
  },
  {
   "property": "C111",
   "status": "partial",
   "theorems": [
    "Verif.InterfaceOps.C111_facets_partial",
    "Verif.InterfaceOps.C111_late_false",
    "Verif.InterfaceOps.C111_cross_false"
   ],
   "note": "C111_facets_partial: if no facet is added while its refinement is pending and a crossing vertex is joined with the third vertex. Refuted otherwise: C111_late_false, C111_cross_false."
  },
  {
   "property": "C112",
   "status": "partial",
   "theorems": [
    "Verif.Movement.C112_3d",
    "Verif.Movement.C112_thrown_false",
    "Verif.Movement.C112_undefined_false",
    "Verif.Movement.C112_rounding_false"
   ],
   "note": "Refuted: an exception after moving leaves the vertices moved (C112_thrown_false, C112_3d), the behaviour is undefined if the interface meets a corner (C112_undefined_false), and adding and subtracting a shift does not give the same number with rounding (C112_rounding_false)."
  },
  {
   "property": "C113",
   "status": "partial",
   "theorems": [
    "Verif.Movement.C113_positive_partial",
    "Verif.Movement.C113_positive_false",
    "Verif.Movement.C113_unchanged_false"
   ],
   "note": "C113_positive_partial: if every cell has a removable vertex that is not queued yet; otherwise refuted (C113_positive_false). In 3D the exception leaves the vertices moved (C113_unchanged_false)."
  },
  {
   "property": "C114",
   "status": "partial",
   "theorems": [
    "Verif.Parallel.C114_ghost_partial",
    "Verif.Parallel.C114_clear_false",
    "Verif.Parallel.C114_interface_false"
   ],
   "note": "C114_ghost_partial: without interface vertices; refuted with them (C114_interface_false). The loop that clears the maps runs over an array and passes its end (C114_clear_false)."
  },
  {
   "property": "C115",
   "status": "partial",
   "theorems": [
    "Verif.Parallel.C115_complete_partial",
    "Verif.Parallel.C115_interface_false"
   ],
   "note": "C115_complete_partial: without interface vertices. Refuted with them: ghosts due to the interface get nothing (C115_interface_false)."
  },
  {
   "property": "C116",
   "status": "partial",
   "theorems": [
    "Verif.ObjStream.C116_end_false",
    "Verif.ObjStream.C116_alignment_false",
    "Verif.ObjStream.C116_readStream_partial",
    "Verif.ObjStream.C116_readStream_false"
   ],
   "note": "Refuted: without assertions reading too much is not reported (C116_end_false), mixed alignment stores at misaligned addresses (C116_alignment_false), readStream after a read takes too many bytes (C116_readStream_false). C116_readStream_partial: right if nothing was read before."
  },
  {
   "property": "C117",
   "status": "partial",
   "theorems": [
    "Verif.Clip.C117_cutset_false"
   ],
   "note": "Refuted by C117_cutset_false: triangles below the threshold are dropped. The bounds are in C41."
  },
  {
   "property": "C118",
   "status": "partial",
   "theorems": [
    "Verif.Distance.C118_ghost_false"
   ],
   "note": "Refuted: vertices that are not interior keep 1e100 (C118_ghost_false, for all such vertices)."
  },
  {
   "property": "C119",
   "status": "partial",
   "theorems": [
    "Verif.Indicator.C119_documented_minimum_false",
    "Verif.Indicator.C119_segment_unit_false"
   ],
   "note": "Refuted: interface elements longer than 240 are to be coarsened whatever the maximum (C119_segment_unit_false); the minimum is a quarter of the shortest edge (C119_documented_minimum_false)."
  },
  {
   "property": "C120",
   "status": "partial",
   "theorems": [
    "Verif.Container.C120_unannounced_false"
   ],
   "note": "Refuted: without a data handle the sequence number stays and resize does nothing (C120_unannounced_false)."
  },
  {
   "property": "C121",
   "status": "partial",
   "theorems": [
    "Verif.Solve.C121_iterations_false",
    "Verif.Solve.C121_zero_false",
    "Verif.Solve.C121_ftol_false"
   ],
   "note": "Refuted: the number is one less (C121_iterations_false), iter=0 fails (C121_zero_false), f_tol is only used if tol was given too (C121_ftol_false)."
  },
  {
   "property": "C122",
   "status": "partial",
   "theorems": [
    "Verif.MoveMesh.C122_unchecked_false",
    "Verif.MoveMesh.C122_adapted_false",
    "Verif.MoveMesh.C122_list_false"
   ],
   "note": "Refuted: after ten steps the interface is moved although the check returned True (C122_unchecked_false); without functions nothing is adapted (C122_adapted_false); a Python list of shifts is repeated instead of doubled (C122_list_false)."
  },
  {
   "property": "C123",
   "status": "partial",
   "theorems": [
    "Verif.InterfaceOps.C123_implicit_false"
   ],
   "note": "Refuted: the implicit factory sets no vertex flags (C123_implicit_false)."
  },
  {
   "property": "C124",
   "status": "partial",
   "theorems": [
    "Verif.Indicator.C124_false"
   ],
   "note": "Refuted if only one edge is too long: C124_false."
  },
  {
   "property": "C125",
   "status": "partial",
   "theorems": [
    "Verif.LongestEdge.C125_chosen_partial",
    "Verif.LongestEdge.C125_level_false",
    "Verif.LongestEdge.C125_corner_false"
   ],
   "note": "Refuted: vertices of the lowest level come first (C125_level_false) and corners may be chosen (C125_corner_false). C125_chosen_partial states what is chosen if the comparison is a strict weak ordering."
  },
  {
   "property": "C126",
   "status": "partial",
   "theorems": [
    "Verif.Container.C126_unresized_false"
   ],
   "note": "Refuted: C126_unresized_false."
  },
  {
   "property": "C127",
   "status": "partial",
   "theorems": [
    "Verif.Container.C127_returned_false"
   ],
   "note": "Refuted: an element that vanished keeps its entry and has its former value when it comes back (C127_returned_false)."
  },
  {
   "property": "C128",
   "status": "partial",
   "theorems": [
    "Verif.Solve.C128_false"
   ],
   "note": "Refuted: the callback is not called between the bulk and the interface scheme (C128_false)."
  },
  {
   "property": "C129",
   "status": "partial",
   "theorems": [
    "Verif.Trace.C129_elements_partial",
    "Verif.Trace.C129_entity_false"
   ],
   "note": "C129_elements_partial: zero as long as no interface intersection was bound. Refuted afterwards: bind(entity) keeps the value of the last facet (C129_entity_false)."
  },
  {
   "property": "C130",
   "status": "partial",
   "theorems": [
    "Verif.Jacobian.C130_boundary_false"
   ],
   "note": "Refuted: outside() is called without asking for a neighbour (C130_boundary_false)."
  },
  {
   "property": "C131",
   "status": "partial",
   "theorems": [
    "Verif.Jacobian.C131_continuous",
    "Verif.Jacobian.C131_continuous_false"
   ],
   "note": "Refuted: entries of shared degrees of freedom are exactly twice the quotient, since both sides add the column (C131_continuous, C131_continuous_false)."
  },
  {
   "property": "C132",
   "status": "partial",
   "theorems": [
    "Verif.Jacobian.C132_update_false"
   ],
   "note": "Refuted: the callback is not called after the last reset (C132_update_false)."
  },
  {
   "property": "C133",
   "status": "partial",
   "theorems": [
    "Verif.Jacobian.C133_stale_false"
   ],
   "note": "Refuted: if the pattern shrinks old entries stay in the combined matrix (C133_stale_false)."
  },
  {
   "property": "C134",
   "status": "partial",
   "theorems": [
    "Verif.Transfer.C134_interface_partial",
    "Verif.Transfer.C134_interface_false"
   ],
   "note": "C134_interface_partial: if one of the segments contains the other. Refuted otherwise: it is the minimum of the lengths (C134_interface_false)."
  },
  {
   "property": "C135",
   "status": "partial",
   "theorems": [
    "Verif.Transfer.C135_tolerance_partial",
    "Verif.Transfer.C135_small_false"
   ],
   "note": "C135_tolerance_partial: for elements with a part above the threshold. Refuted for small elements, which are not written at all (C135_small_false)."
  },
  {
   "property": "C136",
   "status": "partial",
   "theorems": [
    "Verif.Transfer.C136_join_false"
   ],
   "note": "Refuted at a sharp corner: C136_join_false."
  },
  {
   "property": "C137",
   "status": "partial",
   "theorems": [
    "Verif.HoleRemesh.C137_bent_false",
    "Verif.HoleRemesh.C137_adjacent_false"
   ],
   "note": "Refuted: at a bent interface a neighbour may lie between the interface and its chord, then all facets go to one hole and an end point stays a null handle (C137_bent_false); the same if the two neighbours are joined by an edge of the star (C137_adjacent_false)."
  },
  {
   "property": "C138",
   "status": "partial",
   "theorems": [
    "Verif.BoundaryIds.C138_refined_false",
    "Verif.BoundaryIds.C138_parallel_false",
    "Verif.BoundaryIds.C138_parallel_partial"
   ],
   "note": "Refuted on several processes (C138_parallel_false: local renumbering) and for the halves of a refined boundary edge (C138_refined_false); C138_parallel_partial gives a case that works."
  },
  {
   "property": "C139",
   "status": "partial",
   "theorems": [
    "Verif.Implicit.C139_index_false",
    "Verif.Implicit.C139_segment_partial",
    "Verif.Implicit.C139_stale_false",
    "Verif.Implicit.C139_interface_false"
   ],
   "note": "Refuted: no facet is ever an interface facet since the vertices are not flagged (C139_interface_false); segments inserted before a point that is inserted again are stored under stale ids (C139_stale_false); C139_index_false. C139_segment_partial: stored under the right ids if no vertices follow."
  },
  {
   "property": "C140",
   "status": "partial",
   "theorems": [
    "Verif.InterfaceFactory.C140_new_vertex_false"
   ],
   "note": "Refuted: a new vertex has no valid id until the next update of the grid; then the inserted element is lost (C140_new_vertex_false)."
  },
  {
   "property": "C141",
   "status": "partial",
   "theorems": [
    "Verif.Incident.C141_vertices_flagged",
    "Verif.Incident.C141_vertices_partial",
    "Verif.Incident.C141_vertices_false",
    "Verif.Incident.C141_curvature_false"
   ],
   "note": "It visits all flagged vertices joined by any edge of the mesh (C141_vertices_flagged), so that the claim is refuted (C141_vertices_false) and the curvature of a straight interface is wrong next to another one (C141_curvature_false); C141_vertices_partial says when it holds."
  },
  {
   "property": "C142",
   "status": "partial",
   "theorems": [
    "Verif.Entity.C142_interface_partial",
    "Verif.Entity.C142_interface_false",
    "Verif.Entity.C142_middle_false",
    "Verif.Entity.C142_old_false"
   ],
   "note": "Interface elements if the insertion numbers differ (C142_interface_partial, C142_interface_false). Refuted for the triangles of cut sets, all of which are equal (C142_middle_false), and for old elements, which are compared by a handle that belongs to a new element (C142_old_false)."
  },
  {
   "property": "C143",
   "status": "partial",
   "theorems": [
    "Verif.Entity.C143_old_false",
    "Verif.Entity.C143_facet_copy_partial",
    "Verif.Entity.C143_assign_false"
   ],
   "note": "Refuted: an assignment between facets keeps the cached id of the target (C143_assign_false); seeds of old elements say they are valid but give another element (C143_old_false). C143_facet_copy_partial: facets whose id was not asked for before."
  },
  {
   "property": "C144",
   "status": "partial",
   "theorems": [
    "Verif.Entity.C144_copy_false",
    "Verif.Entity.C144_interface_partial",
    "Verif.Entity.C144_interface_false"
   ],
   "note": "Refuted: copies lose the father (C144_copy_false), wrong at a straightened bend (C144_interface_false). C144_interface_partial: right if the element lies on the line of the father."
  },
  {
   "property": "C145",
   "status": "partial",
   "theorems": [
    "Verif.Markers.C145_implicit_false",
    "Verif.Markers.C145_values",
    "Verif.Markers.C145_refined_false"
   ],
   "note": "Refuted: the implicit factory ignores markers (C145_implicit_false); whenever the number of elements grows in an insertion some element has marker 0 (C145_refined_false). C145_values: after any sequence of insertions and removals all markers are old ones or 0."
  },
  {
   "property": "C146",
   "status": "partial",
   "theorems": [
    "Verif.Markers.C146_read_false",
    "Verif.Markers.C146_extend_false",
    "Verif.Markers.C146_join_false"
   ],
   "note": "Refuted: an extension gets 1 (C146_extend_false), joining two parts loses one of the markers (C146_join_false), reading the marker of a facet that is no longer an interface element makes it one (C146_read_false)."
  },
  {
   "property": "C147",
   "status": "partial",
   "theorems": [
    "Verif.Curvature.C147_small_false",
    "Verif.Curvature.C147_element_boundary_false",
    "Verif.Curvature.C147_stale_center_false"
   ],
   "note": "Refuted: the threshold of the determinant is absolute, so that points 1e-5 apart on a circle are reported as flat (C147_small_false); after a flat vertex the centre is the one of the vertex before (C147_stale_center_false); an element at the boundary of the interface makes the element layout ask a boundary intersection for its outside element, which passes the end of a circulator (C147_element_boundary_false). C47 says what holds."
  },
  {
   "property": "C148",
   "status": "partial",
   "theorems": [
    "Verif.InterfaceIter.C148_false"
   ],
   "note": "Refuted: for equal stored insertion numbers, which adaptation does not exclude, the interface elements differ (C148_false)."
  },
  {
   "property": "C149",
   "status": "partial",
   "theorems": [
    "Verif.InterfaceIndexSet.C149_equal_false",
    "Verif.InterfaceIndexSet.C149_range_false"
   ],
   "note": "Refuted: the two boundary intersections of such an element share an index (C149_equal_false), and an index is not below numBoundarySegments() (C149_range_false)."
  },
  {
   "property": "C150",
   "status": "partial",
   "theorems": [
    "Verif.Adapt.C150_failed_false"
   ],
   "note": "Refuted: the pairing of vertices and components is shifted (C150_failed_false)."
  },
  {
   "property": "C151",
   "status": "partial",
   "theorems": [
    "Verif.Movement.C151_flag_false",
    "Verif.Movement.C151_corner_false"
   ],
   "note": "Refuted: the flag is computed for the moved positions and kept, so corners can be queued (C151_corner_false) and straight vertices become corners for ever (C151_flag_false)."
  },
  {
   "property": "C152",
   "status": "partial",
   "theorems": [
    "Verif.Trace.C152_side_false"
   ],
   "note": "Refuted: for equal insertion numbers it depends on the side (C152_side_false)."
  },
  {
   "property": "C153",
   "status": "partial",
   "theorems": [
    "Verif.ObjStream.C153_two_copies_false",
    "Verif.ObjStream.C153_source_false",
    "Verif.ObjStream.C153_growth_false",
    "Verif.ObjStream.C153_self_false"
   ],
   "note": "Refuted: two copies of one stream free the buffer twice (C153_two_copies_false), a source used after its copy is gone or has grown reads freed memory (C153_source_false, C153_growth_false), self-assignment loses the contents (C153_self_false)."
  },
  {
   "property": "C154",
   "status": "partial",
   "theorems": [
    "Verif.Parallel.C154_junction_false",
    "Verif.Parallel.C154_false"
   ],
   "note": "Refuted: C154_junction_false, C154_false give a junction at which the lists of sender and receiver differ."
  },
  {
   "property": "C155",
   "status": "proved",
   "theorems": [
    "Verif.InterfaceGeo.C155_conforming_2d",
    "Verif.InterfaceGeo.C155_conforming_3d"
   ],
   "note": ""
  },
  {
   "property": "C156",
   "status": "proved",
   "theorems": [
    "Verif.BoundaryFlag.C156_interior",
    "Verif.BoundaryFlag.C156_boundary",
    "Verif.BoundaryFlag.C156_straight",
    "Verif.BoundaryFlag.C156_corner",
    "Verif.BoundaryFlag.C156_cached",
    "Verif.BoundaryFlag.C156_defined"
   ],
   "note": ""
  },
  {
   "property": "C157",
   "status": "partial",
   "theorems": [
    "Verif.BoundaryFlag.C157_three",
    "Verif.BoundaryFlag.C157_3d_false",
    "Verif.BoundaryFlag.C157_false"
   ],
   "note": "Refuted: in the unit square cut along a diagonal the corners at the ends of the diagonal get flag 0, because the other end is a third neighbour on the boundary (C157_false); any vertex with three neighbours on the boundary gets 0 (C157_three); in 3D no vertex ever gets flag 1 (C157_3d_false). What holds is C156."
  },
  {
   "property": "C158",
   "status": "partial",
   "theorems": [
    "Verif.Ranks.C158_idle",
    "Verif.Ranks.C158_false",
    "Verif.Ranks.C158_load_partial"
   ],
   "note": "Refuted: setRanks divides by number_of_cells(), which in 3D counts infinite cells too, so the last ranks get fewer elements or none (C158_false: cube of six tetrahedra on two processes, loads 6 and 0; C158_idle: whenever N*P is at most the number of all cells, process 0 has all elements). Holds: the load of a process is at most (all cells)/P + 1 (C158_load_partial)."
  },
  {
   "property": "C159",
   "status": "proved",
   "theorems": [
    "Verif.PartIter.C159_elements",
    "Verif.PartIter.C159_owner",
    "Verif.PartIter.C159_serial",
    "Verif.PartIter.C159_interface",
    "Verif.PartIter.C159_facets"
   ],
   "note": "Interface elements under Describes: the iterator stops at the side that is the inside of the interface element (C19, C55)."
  },
  {
   "property": "C160",
   "status": "proved",
   "theorems": [
    "Verif.PartIter.C160_facets",
    "Verif.PartIter.C160_vertices",
    "Verif.PartIter.C160_joints",
    "Verif.PartIter.C160_interface_vertices"
   ],
   "note": "Connection of the elements at a vertex is a hypothesis; without it see C161."
  },
  {
   "property": "C161",
   "status": "partial",
   "theorems": [
    "Verif.PartIter.C161_false",
    "Verif.PartIter.C161_missing_partial"
   ],
   "note": "Refuted: C161_false with two interface triangles that have only a vertex in common and belong to two processes; ghosts are only made at common edges, the vertex gets partition -1. C161_missing_partial says exactly which vertices are missing; for connected stars the claim is C160_interface_vertices."
  },
  {
   "property": "C162",
   "status": "partial",
   "theorems": [
    "Verif.PartIter.C162_edges_partial",
    "Verif.PartIter.C162_false"
   ],
   "note": "Refuted: edges in 3D are not counted (C162_false, C162_edges_partial); interface/grid.hh:427-440 omits edges of the interface in 3D in the same way. The other codimensions are C163."
  },
  {
   "property": "C163",
   "status": "proved",
   "theorems": [
    "Verif.PartIter.C163_elements",
    "Verif.PartIter.C163_facets"
   ],
   "note": ""
  },
  {
   "property": "C164",
   "status": "partial",
   "theorems": [
    "Verif.NewFaces.C164_new_face_false",
    "Verif.NewFaces.C164_false"
   ],
   "note": "Refuted: the order of the slots of an element (info().cgalIndex) is only computed by setIds() at the end of adapt(); a removal reads it for all elements at the vertex, and elements created in the same call have an uninitialised one (C164_new_face_false, C164_false: two neighbours on a straight interface). What holds is C165."
  },
  {
   "property": "C165",
   "status": "proved",
   "theorems": [
    "Verif.NewFaces.C165_settled",
    "Verif.NewFaces.C165_found",
    "Verif.NewFaces.C165_removal",
    "Verif.NewFaces.C165_join"
   ],
   "note": ""
  },
  {
   "property": "C166",
   "status": "partial",
   "theorems": [
    "Verif.AddParallel.C166_never_false",
    "Verif.AddParallel.C166_false"
   ],
   "note": "Refuted: addInterface computes the indices of the interface grid before the partitions, so on several processes the new element is skipped and has no index on any process (C166_never_false for all grids, C166_false for two triangles). loadBalance() repairs it (C167)."
  },
  {
   "property": "C167",
   "status": "proved",
   "theorems": [
    "Verif.AddParallel.C167_serial",
    "Verif.AddParallel.C167_balanced"
   ],
   "note": ""
  },
  {
   "property": "C168",
   "status": "proved",
   "theorems": [
    "Verif.Circulate.C168_created",
    "Verif.Circulate.C168_elements",
    "Verif.Circulate.C168_facets",
    "Verif.Circulate.C168_vertices"
   ],
   "note": ""
  },
  {
   "property": "C169",
   "status": "partial",
   "theorems": [
    "Verif.Circulate.C169_created_false",
    "Verif.Circulate.C169_elements_false"
   ],
   "note": "Refuted: for a domain with a triangular hole that touches the outer boundary in a vertex, infiniteNeighborMap joins the two infinite faces at each wedge of elements, so that the pointers at this vertex form two separate cycles. If an element of the other wedge starts with this vertex, createGrid throws that it was not found (C169_created_false); otherwise the grid is created and incidentElements leaves it out (C169_elements_false). What holds is C168 (no such vertex)."
  },
  {
   "property": "C170",
   "status": "proved",
   "theorems": [
    "Verif.Dgf.C170_file_2d",
    "Verif.Dgf.C170_file_3d",
    "Verif.Dgf.C170_throws",
    "Verif.Dgf.C170_stream_2d",
    "Verif.Dgf.C170_stream_3d"
   ],
   "note": "The parser of dune-grid (text to lists) is an input of the model; coordinates in an ordered field; boundary ids are C85."
  },
  {
   "property": "C171",
   "status": "partial",
   "theorems": [
    "Verif.Dgf.C171_stream_false"
   ],
   "note": "Refuted: the constructor with a stream ignores the value of generate; for every stream that can be reset but is not in the format it returns and the pointer grid_ is never initialised (C171_stream_false, for all orders and dimensions)."
  },
  {
   "property": "C172",
   "status": "partial",
   "theorems": [
    "Verif.Dgf.C172_parameter_false",
    "Verif.Dgf.C172_file_false"
   ],
   "note": "Refuted: numParameters is 0 for every codimension, so parameter throws for every element and vertex of every file (C172_parameter_false); C172_file_false is a file with parameters that is read and whose first element has a parameter."
  },
  {
   "property": "C173",
   "status": "partial",
   "theorems": [
    "Verif.BoundaryIds.C173_zero_false",
    "Verif.BoundaryIds.C173_square_false",
    "Verif.BoundaryIds.C173_dgf_false"
   ],
   "note": "Refuted: both factories return the boundary id, which is 0 for all intersections without calls of addBoundaryId (C173_zero_false) and the id of the file for DGF files (C173_dgf_false). boundarySegmentIndex is the number of the call (C15)."
  },
  {
   "property": "C174",
   "status": "proved",
   "theorems": [
    "Verif.Implicit.C174_index",
    "Verif.Implicit.C174_injective"
   ],
   "note": "What CGAL does when a vertex is inserted is any relation in which cells with the same handle keep their info (Retri)."
  },
  {
   "property": "C175",
   "status": "partial",
   "theorems": [
    "Verif.Implicit.C175_diagonal_false",
    "Verif.Implicit.C175_later_vertex_false"
   ],
   "note": "Refuted: elements that CGAL does not make are ignored and the elements made instead have an indeterminate insertion index (C175_diagonal_false); a vertex inserted after the elements leaves the number on a cell with other vertices (C175_later_vertex_false). True part: C174."
  },
  {
   "property": "C176",
   "status": "proved",
   "theorems": [
    "Verif.Gmsh.C176_readable_2d",
    "Verif.Gmsh.C176_readable_3d",
    "Verif.Gmsh.C176_elements_2d",
    "Verif.Gmsh.C176_elements_3d",
    "Verif.Gmsh.C176_segments_2d",
    "Verif.Gmsh.C176_segments_3d",
    "Verif.Gmsh.C176_duplicate"
   ],
   "note": "Parsing of words is that of Gmsh.generate; coordinates are in an ordered field; the file is any text with the sections of nodes and elements. The neighbours of the elements are C13. Quadrilaterals are excluded (C178)."
  },
  {
   "property": "C177",
   "status": "partial",
   "theorems": [
    "Verif.Gmsh.C177_tags_false",
    "Verif.Gmsh.C177_square_false"
   ],
   "note": "Refuted: the reader never calls addBoundaryId, so boundaryId is 0 for all intersections of all files (C177_tags_false); C177_square_false is a file where the facet is a boundary segment with tag 3. The domain marker of interface segments is the tag (C176)."
  },
  {
   "property": "C178",
   "status": "partial",
   "theorems": [
    "Verif.Gmsh.C178_quadrilateral_false"
   ],
   "note": "Refuted: in a release build the geometry type is only asserted; a quadrilateral becomes the triangle of its first three corners without an error (C178_quadrilateral_false)."
  },
  {
   "property": "C179",
   "status": "partial",
   "theorems": [
    "Verif.Gmsh.C179_stream_false"
   ],
   "note": "Refuted: this constructor never sets the pointer to the factory; the behaviour is undefined for all files with nodes (C179_stream_false)."
  },
  {
   "property": "C180",
   "status": "partial",
   "theorems": [
    "Verif.Adapt.C180_removal_false",
    "Verif.Adapt.C180_stale_false",
    "Verif.Adapt.C180_failed_false",
    "Verif.Adapt.C180_handle_false"
   ],
   "note": "Refuted: false if vertices are only removed (C180_removal_false), if all requested edges are gone (C180_stale_false), if an extension is given up (C180_failed_false), and for adapt(handle) (C180_handle_false). True part: C28."
  },
  {
   "property": "C181",
   "status": "partial",
   "theorems": [
    "Verif.Threads.C181_overlap_false",
    "Verif.Threads.C181_wrong_answer_false"
   ],
   "note": "Refuted: overlapping calls share a static vector, any call can return the answer of any other (C181_overlap_false, C181_wrong_answer_false), already with sequentially consistent memory. True part: C49."
  },
  {
   "property": "C182",
   "status": "partial",
   "theorems": [
    "Verif.ConnComp.C182_order_false"
   ],
   "note": "Refuted: a default-constructed component with an indeterminate grid pointer is used if the request behind comes first; C182_order_false gives two requests on a fresh grid. Exact condition: C57_exact."
  },
  {
   "property": "C183",
   "status": "partial",
   "theorems": [
    "Verif.Adapt.C183_bulk_false",
    "Verif.Adapt.C183_cached_false"
   ],
   "note": "Refuted: bulk requests, whose new vertices have an indeterminate id (C183_bulk_false), and a second adapt() without postAdapt() (C183_cached_false). True part: C59."
  },
  {
   "property": "C184",
   "status": "partial",
   "theorems": [
    "Verif.Movement.C184_outside_false",
    "Verif.Movement.C184_queued_false"
   ],
   "note": "Refuted: a crossing whose point is not on the interface edge is discarded (C184_outside_false), a queued vertex hides its cells (C184_queued_false). True part: C60."
  },
  {
   "property": "C185",
   "status": "partial",
   "theorems": [
    "Verif.ConnComp.C185_gap_false"
   ],
   "note": "Refuted: a request that joins two earlier ones leaves a gap in the component numbers; the assertion that compares the number with the size of the map fails for the components behind it (C185_gap_false). In release builds the component is returned (C57_query)."
  },
  {
   "property": "C186",
   "status": "proved",
   "theorems": [
    "Verif.InterfaceGeo.C186_mesh",
    "Verif.InterfaceGeo.C186_interface",
    "Verif.InterfaceGeo.C186_only"
   ],
   "note": "The twist utility always returns 0; C186_only shows that no other twist is right. The corners of an intersection and of the faces of its elements are those of the RefElem and InterfaceGeo models."
  },
  {
   "property": "C187",
   "status": "proved",
   "theorems": [
    "Verif.Refine.C187_marked",
    "Verif.Refine.C187_conforming",
    "Verif.Refine.C187_cycles",
    "Verif.Refine.C187_volume"
   ],
   "note": "CGAL's insertion functions are modelled by their documented effect on the elements. A request that is carried out for another edge than the one it was made for (C183) is not covered. Positions in an ordered field."
  },
  {
   "property": "C188",
   "status": "partial",
   "theorems": [
    "Verif.Refine.C188_where_false",
    "Verif.Refine.C188_corner_false",
    "Verif.Refine.C188_position_false",
    "Verif.Refine.C188_outside_false"
   ],
   "note": "Refuted: where outside the interval from 0 to 1 inverts elements (C188_where_false), where = 1 and a position on an edge give degenerate elements (C188_corner_false, C188_position_false), a position outside the domain makes it grow (C188_outside_false). None of the arguments is checked. True part: C187."
  },
  {
   "property": "C189",
   "status": "proved",
   "theorems": [
    "Verif.Refine.C189_conforming",
    "Verif.Refine.C189_adapt"
   ],
   "note": "That CGAL fills a closed hole with a triangulation whose boundary is that of the hole is an assumption (Fills); the theorem concerns the mesh as a whole. In 3D the removal throws."
  },
  {
   "property": "C190",
   "status": "partial",
   "theorems": [
    "Verif.Refine.C190_corner_false"
   ],
   "note": "Refuted: a corner of the domain is cut off (C190_corner_false); removeVertex does not check. True part: C189."
  },
  {
   "property": "C191",
   "status": "proved",
   "theorems": [
    "Verif.MoveGeo.C191_conforming",
    "Verif.MoveGeo.C191_interface",
    "Verif.MoveGeo.C191_vertices",
    "Verif.MoveGeo.C191_interface_space",
    "Verif.MoveGeo.C191_vertices_space",
    "Verif.MoveGeo.C191_area",
    "Verif.MoveGeo.C191_domain",
    "Verif.MoveGeo.C191_disjoint"
   ],
   "note": "Any dimension, exact arithmetic. C192 shows that the condition on the boundary is needed; C184 and C113 show why the conditions on the answer are needed in two dimensions."
  },
  {
   "property": "C192",
   "status": "partial",
   "theorems": [
    "Verif.MoveGeo.C192_boundary_false"
   ],
   "note": "Refuted: three triangles around a vertex can be turned around it until the last covers the first, all areas stay positive (C192_boundary_false). What holds is C191."
  },
  {
   "property": "C193",
   "status": "proved",
   "theorems": [
    "Verif.Refine.C193_nested",
    "Verif.Refine.C193_global",
    "Verif.Refine.C193_refined"
   ],
   "note": ""
  },
  {
   "property": "C194",
   "status": "partial",
   "theorems": [
    "Verif.Refine.C194_interface_false"
   ],
   "note": "Refuted: adapt() makes no request if the longest edge of a marked element is an interface edge; a triangle whose longest edge is on the interface is not refined by any number of steps (C194_interface_false). What holds is C193_refined."
  },
  {
   "property": "C195",
   "status": "proved",
   "theorems": [
    "Verif.Conserve.C195_component",
    "Verif.Conserve.C195_average",
    "Verif.Conserve.C195_conservation",
    "Verif.Conserve.C195_bounds",
    "Verif.Conserve.C195_inside"
   ],
   "note": "Joins the models of marking, components, insertion, removal, assignment of components and transfer. Execution of adapt_ as Exec.Runs, hypotheses on grid and requests as Exec.Sound; concrete execution in Conserve/Examples. Requests of addToInterface that fail are excluded (C150), clipping without tolerances (C135 for tolerances)."
  },
  {
   "property": "C196",
   "status": "proved",
   "theorems": [
    "Verif.Conserve.C196_mesh",
    "Verif.Conserve.C196_bounds",
    "Verif.Conserve.C196_conservation"
   ],
   "note": "Induction over histories with C195 and C191. Every adaptation meets the hypotheses of C195 on its requests (no marks left from before: C108)."
  },
  {
   "property": "C197",
   "status": "proved",
   "theorems": [
    "Verif.InterfaceTransfer.C197_proper",
    "Verif.InterfaceTransfer.C197_points",
    "Verif.InterfaceTransfer.C197_values",
    "Verif.InterfaceTransfer.C197_conservation",
    "Verif.InterfaceTransfer.C197_bounds"
   ],
   "note": "Joins the models of interface insertion and removal, of the map of new interface elements and of the transfer loop. Hypotheses on the requests in InterfaceTransfer.Requests; concrete adaptation that refines and coarsens in InterfaceTransfer/Examples. Requests of addToInterface: C199."
  },
  {
   "property": "C198",
   "status": "proved",
   "theorems": [
    "Verif.InterfaceTransfer.C198_proper",
    "Verif.InterfaceTransfer.C198_bounds",
    "Verif.InterfaceTransfer.C198_points",
    "Verif.InterfaceTransfer.C198_conservation"
   ],
   "note": "Induction over histories with C197."
  },
  {
   "property": "C199",
   "status": "proved",
   "theorems": [
    "Verif.InterfaceTransfer.C199_unchanged",
    "Verif.InterfaceTransfer.C199_shorter",
    "Verif.InterfaceTransfer.C199_longer"
   ],
   "note": "One request of addToInterface in the middle of a bulk element; the component is the copy of an interface element at the vertex, as addToInterface chooses it."
  },
  {
   "property": "C200",
   "status": "partial",
   "theorems": [
    "Verif.InterfaceTransfer.C200_value_false"
   ],
   "note": "Refuted: an element of length 4 that continues an element of length 2 in the same direction gets half of its value (C200_value_false): adapt(handle) restricts with the old element as if it were a part of the new one. What holds is C199."
  },
  {
   "property": "C201",
   "status": "proved",
   "theorems": [
    "Verif.MoveGeo.C201_space"
   ],
   "note": "Induction over histories with C187 and C191. Removals do not occur in three dimensions."
  },
  {
   "property": "C202",
   "status": "proved",
   "theorems": [
    "Verif.Sides.C202_connected",
    "Verif.Sides.C202_same",
    "Verif.Sides.C202_regions",
    "Verif.Sides.C202_number"
   ],
   "note": "Any dimension, over the real numbers. Elements are given by the ids of their vertices; the interface by a predicate on facets."
  },
  {
   "property": "C203",
   "status": "proved",
   "theorems": [
    "Verif.Sides.C203_adapt",
    "Verif.Sides.C203_regions",
    "Verif.Sides.C203_number"
   ],
   "note": "Two dimensions (interface operations in 3D are undefined, C26; no removal in 3D). Mesh and interface are one state; that the edges of the triangulation behave as InterfaceOps assumes is derived from the elements. What CGAL does to fill a hole is assumed as in C57 (Fills)."
  },
  {
   "property": "C204",
   "status": "partial",
   "theorems": [
    "Verif.Sides.C204_false"
   ],
   "note": "Refuted: if the interface is the boundary of a triangle, removing one of its corners leaves a single interface element, and the two sides become one (C204_false). If the two interface elements form a straight line, nothing changes (C203)."
  },
  {
   "property": "C205",
   "status": "proved",
   "theorems": [
    "Verif.Generated.C205_skeleton",
    "Verif.Generated.C205_trace",
    "Verif.Generated.C205_indicator",
    "Verif.Generated.C205_jacobian",
    "Verif.Generated.C205_header"
   ],
   "note": ""
  },
  {
   "property": "C206",
   "status": "partial",
   "theorems": [
    "Verif.Generated.C206_iterative_false",
    "Verif.Generated.C206_earlier_flag",
    "Verif.Generated.C206_iterative_partial"
   ],
   "note": "Refuted: the name of the generated module is computed from the types only and not from the header, so after monolithicSolve(iterative=True) a call with the same types and iterative=False works with the iterative implementation, and the other way round (C206_iterative_false, C206_earlier_flag). True if all earlier calls with these types gave the same flag (C206_iterative_partial)."
  },
  {
   "property": "C207",
   "status": "partial",
   "theorems": [
    "Verif.Jacobian.Calls.C207_count",
    "Verif.Jacobian.Calls.C207_collective_false",
    "Verif.Jacobian.Calls.C207_collective_partial"
   ],
   "note": "Refuted: while the Jacobian is assembled the callback is called twice for each degree of freedom at the interface elements of the process and of the elements next to them; a process without a part of the interface does not call it at all (C207_collective_false, C207_count). The sequences of operations agree if and only if these numbers agree (C207_collective_partial)."
  },
  {
   "property": "C208",
   "status": "proved",
   "theorems": [
    "Verif.Sides.C208_finer",
    "Verif.Sides.C208_parts",
    "Verif.Sides.C208_sides",
    "Verif.Sides.C208_unchanged",
    "Verif.Sides.C208_number",
    "Verif.Sides.C208_boundary",
    "Verif.Sides.C208_addInterface",
    "Verif.Sides.C208_history"
   ],
   "note": "Combinatorial part for every dimension (C208_finer, C208_parts, C208_sides, C208_number, C208_boundary); C208_addInterface and C208_history for the 2D grid with its list of interface segments. History steps as in C203: vertices of the interface are removed only if they lie on a straight line (see C204)."
  },
  {
   "property": "C209",
   "status": "proved",
   "theorems": [
    "Verif.Sides.C209_adapt",
    "Verif.Sides.C209_isInterface",
    "Verif.Sides.C209_addInterface",
    "Verif.Sides.C209_history",
    "Verif.Sides.C209_number",
    "Verif.Sides.C209_global"
   ],
   "note": "Requests for edges of the interface are excluded: there the code reads outside of a vector in 3D (C26_undefined_3d). C209_adapt holds in every dimension."
  },
  {
   "property": "C210",
   "status": "proved",
   "theorems": [
    "Verif.Conserve.C210_isNew",
    "Verif.Conserve.C210_flag",
    "Verif.Conserve.C210_gone",
    "Verif.Conserve.C210_stays"
   ],
   "note": "Under the conditions of C195 (a triangulation, valid requests, no marks from before). 3D not covered."
  },
  {
   "property": "C211",
   "status": "partial",
   "theorems": [
    "Verif.Conserve.C211_before_false"
   ],
   "note": "Refuted: the flags are set inside adapt() only, so before adapt() no element is flagged while elements do vanish (C211_before_false). What holds of the flags after the marking is C210."
  },
  {
   "property": "C212",
   "status": "partial",
   "theorems": [
    "Verif.Conserve.C212_isLeaf",
    "Verif.Conserve.C212_view_false"
   ],
   "note": "Refuted: new elements are leaf elements of the view for which isLeaf() is false until postAdapt(); in the example all of them (C212_view_false). C212_isLeaf says for which elements it holds."
  },
  {
   "property": "C213",
   "status": "proved",
   "theorems": [
    "Verif.MoveParallel.C213_moveVertices",
    "Verif.MoveParallel.C213_agree",
    "Verif.MoveParallel.C213_interface",
    "Verif.MoveParallel.C213_off"
   ],
   "note": ""
  },
  {
   "property": "C214",
   "status": "partial",
   "theorems": [
    "Verif.MoveParallel.C214_moveInterface_false",
    "Verif.MoveParallel.C214_stays_partial"
   ],
   "note": "Refuted: C214_moveInterface_false gives a square of four triangles with the tip of the interface in its centre; the process that owns the two triangles away from the interface has the tip as a border vertex but does not move it, so the two processes see its elements at different places. What holds: C214_stays_partial (an interface vertex moves exactly on the processes that have one of its interface elements) and C213."
  },
  {
   "property": "C215",
   "status": "proved",
   "theorems": [
    "Verif.Distance.Space.C215_above",
    "Verif.Distance.Space.C215_error",
    "Verif.Distance.Space.C215_zero"
   ],
   "note": ""
  },
  {
   "property": "C216",
   "status": "partial",
   "theorems": [
    "Verif.Distance.Space.C216_exact_false"
   ],
   "note": "Refuted: C216_exact_false (only the corners, the midpoints of the edges and the centre of an interface element are looked at; for a vertex above another point of the element the value is too large). The code calls it an estimate. What holds is C215."
  },
  {
   "property": "C217",
   "status": "proved",
   "theorems": [
    "Verif.MoveParallel.C217_traces",
    "Verif.MoveParallel.C217_ghost_traces",
    "Verif.MoveParallel.C217_skeleton",
    "Verif.MoveParallel.C217_movement"
   ],
   "note": ""
  },
  {
   "property": "C218",
   "status": "partial",
   "theorems": [
    "Verif.MoveParallel.C218_exception_partial",
    "Verif.MoveParallel.C218_edgeMovement_false"
   ],
   "note": "Refuted: at a tip of the interface on the boundary of a partition, the process without interface elements evaluates the index of the interface vertex and gets an InvalidStateException (C218_edgeMovement_false). C218_exception_partial: this happens on every element with an interface vertex that is not in the interface grid of the process; otherwise C217_movement holds."
  },
  {
   "property": "C219",
   "status": "proved",
   "theorems": [
    "Verif.Trace.C219_rows",
    "Verif.Trace.C219_list",
    "Verif.Trace.C219_edgeMovement"
   ],
   "note": ""
  },
  {
   "property": "C220",
   "status": "partial",
   "theorems": [
    "Verif.Trace.C220_place_partial",
    "Verif.Trace.C220_arrays_false",
    "Verif.Trace.C220_views_false"
   ],
   "note": "Refuted: the entries are read at dim*i+d after the first one, whatever the strides are. A transposed array is used with rows and columns exchanged (C220_arrays_false), a slice of columns gives wrong rows and shifts[::-1] is read outside of its memory (C220_views_false). C220_place_partial says what is read in general; contiguous arrays are C219."
  },
  {
   "property": "C221",
   "status": "proved",
   "theorems": [
    "Verif.Refine.C221_marked",
    "Verif.Refine.C221_drops",
    "Verif.Refine.C221_ends",
    "Verif.Refine.C221_reaches"
   ],
   "note": "Model: the marks of all elements and interface elements, the requests for their longest edges, and the insertion loop in which each request is carried out or dropped. A request counts as dropped if its edge is not found by its stored handle (mmesh.hh:1234-1243); C183 deals with requests that are carried out for a wrong edge. The limit must be the same everywhere: with distance dependent limits the longest edge of the grid may be permitted. Proof: halving an edge longer than H creates edges whose squared lengths are at most the largest one minus H\u00b2/4."
  },
  {
   "property": "C222",
   "status": "partial",
   "theorems": [
    "Verif.Refine.Stuck.C222_progress_false",
    "Verif.Refine.Stuck.C222_work_partial"
   ],
   "note": "Refuted: an interface of one element of length 300 is marked for coarsening (radius ratio of interface elements depends on the unit, C119), but none of its vertices is removable, so that nothing happens and markElements() returns true forever. Holds if interface elements marked for coarsening have a vertex with two interface elements."
  },
  {
   "property": "C223",
   "status": "proved",
   "theorems": [
    "Verif.IndexSet.C223_plane",
    "Verif.IndexSet.C223_space",
    "Verif.IndexSet.C223_interface",
    "Verif.IndexSet.C223_types",
    "Verif.IndexSet.C223_other"
   ],
   "note": "The number of simplices is the number of sets of k+1 vertices that are contained in an element. As in C05 and C22, that the iterations of the grid visit every entity once is a hypothesis (C19, C159), and every vertex belongs to an element."
  },
  {
   "property": "C224",
   "status": "partial",
   "theorems": [
    "Verif.IndexSet.C224_tetrahedra_false",
    "Verif.IndexSet.C224_triangles_false",
    "Verif.IndexSet.C224_copy_false",
    "Verif.IndexSet.C224_copy_partial"
   ],
   "note": "Refuted: size(tetrahedron) of a 2D grid and size(triangle) of the interface of a 2D grid read sizeOfCodim_[-1] (an assertion in debug builds). A copy of the bulk index set has no indices of facets and edges, so that index() throws; sizes and the indices of elements and vertices are kept."
  },
  {
   "property": "C225",
   "status": "proved",
   "theorems": [
    "Verif.Refine.C225_insert",
    "Verif.Refine.C225_vertices",
    "Verif.Refine.C225_elements",
    "Verif.Refine.C225_adapt",
    "Verif.Refine.C225_requests",
    "Verif.Refine.C225_edges"
   ],
   "note": "All steps of the insertion loop of C187, in every dimension: edges, points inside an element, points outside of the grid, dropped requests. The counts are those of C223. Removal of vertices is not covered."
  },
  {
   "property": "C226",
   "status": "proved",
   "theorems": [
    "Verif.AdaptParallel.C226_element",
    "Verif.AdaptParallel.C226_possible",
    "Verif.AdaptParallel.C226_plane",
    "Verif.AdaptParallel.C226_grid"
   ],
   "note": "Bulk refinement of marked elements by the longest edge. Hypotheses: a process has at least its interior elements and their neighbours across facets, marks agree on common elements, no request is dropped (C188 and C222 describe when requests are dropped), no coarsening and no interface requests. C226_possible shows that runs with these properties exist for all marks; C226_grid is the statement about the whole grid."
  },
  {
   "property": "C227",
   "status": "partial",
   "theorems": [
    "Verif.AdaptParallel.C227_ghost_false",
    "Verif.AdaptParallel.C227_owners_false",
    "Verif.AdaptParallel.C227_ids_false",
    "Verif.AdaptParallel.C227_space_false"
   ],
   "note": "Refuted: requests are not communicated. C227_ghost_false: an element is halved on its owner because of a neighbour that the other process does not have; C227_owners_false: every process distributes its own, different triangulation anew, and the interior elements do not add up; C227_ids_false: two different new vertices get the same id; C227_space_false: in 3D an edge of an own element may be divided because of an element that is not present. What does hold is C226."
  },
  {
   "property": "C228",
   "status": "proved",
   "theorems": [
    "Verif.IntersectionIter.C228_iterate",
    "Verif.IntersectionIter.C228_numbers",
    "Verif.IntersectionIter.C228_visible",
    "Verif.IntersectionIter.C228_outside",
    "Verif.IntersectionIter.C228_symmetric"
   ],
   "note": "The facets are visited in descending order of the slots of CGAL, which is not the order of indexInInside(). A ghost that was added because of the interface may have no intersections at all (example beside C228_symmetric). C228_visible, C228_outside and C228_symmetric use the partitions of C35."
  },
  {
   "property": "C229",
   "status": "proved",
   "theorems": [
    "Verif.IntersectionIter.C229_sum",
    "Verif.IntersectionIter.C229_conservative_2d",
    "Verif.IntersectionIter.C229_conservative_3d",
    "Verif.IntersectionIter.C229_constant_2d",
    "Verif.IntersectionIter.C229_constant_3d"
   ],
   "note": "Hypotheses on the grid (Mates, Fits2, Fits3): neighbours are mutual, have one facet in common and lie on different sides of it, elements are positively oriented; these are what C13, C14 and C187 give. C229_sum is the statement for any flux, the others use the normals of the model (C10)."
  },
  {
   "property": "C230",
   "status": "proved",
   "theorems": [
    "Verif.InterfaceIndexSet.C230_sum",
    "Verif.InterfaceIndexSet.C230_mass",
    "Verif.InterfaceIndexSet.C230_possible"
   ],
   "note": "C230_sum for every antisymmetric flux and every distribution, C230_mass for a finite volume step, C230_possible shows that the hypotheses on a process are always met. Fluxes depend on the vertex sets of the two elements; the normals of the interface intersections are not used (at a junction they are not opposite)."
  },
  {
   "property": "C231",
   "status": "proved",
   "theorems": [
    "Verif.Indicator.C231_agree",
    "Verif.Indicator.C231_border",
    "Verif.Indicator.C231_refine"
   ],
   "note": "C231_agree, C231_refine (with C226); C231_border shows that the required positive largest distance is given on every process with a border vertex. In the model a division by a largest distance of zero would give zero, in the code NaN: excluded by hypothesis."
  },
  {
   "property": "C232",
   "status": "partial",
   "theorems": [
    "Verif.Indicator.C232_serial_false",
    "Verif.Indicator.C232_ghost_false",
    "Verif.Indicator.C232_return_false",
    "Verif.Indicator.C232_far_false"
   ],
   "note": "Refuted: C232_serial_false, C232_ghost_false and C232_return_false for a fan of four triangles on two processes without interface (thresholds come from the edges present on the process), C232_far_false because vertices at the border of a process keep the value 1e100, which is then the largest distance. The true part is C231."
  },
  {
   "property": "C233",
   "status": "proved",
   "theorems": [
    "Verif.Entity.C233_old",
    "Verif.Entity.C233_again",
    "Verif.Entity.C233_facet_again"
   ],
   "note": "The corners are those at the time of the construction. Copies and assignments of facets do not keep this, see C143."
  }
 ]
}
