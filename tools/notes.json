{
 "C11": {
  "status": "proved",
  "note": "Over an ordered field (direction) and the reals (unit normal). The length of integrationOuterNormal is C100."
 },
 "C12": {
  "status": "proved",
  "note": "Proved for all dimensions and codimensions the code has."
 },
 "C14": {
  "status": "proved",
  "note": ""
 },
 "C15": {
  "status": "proved",
  "note": ""
 },
 "C17": {
  "status": "partial",
  "note": "False as stated: duplicates are never rejected (C17_never_rejected) and shift the numbering (C17_duplicate_false). Consecutive without duplicates (C17_numbered_partial)."
 },
 "C18": {
  "status": "proved",
  "note": "Files as lists of tokenised lines."
 },
 "C19": {
  "status": "proved",
  "note": "Exact number of visits in C19_interior, C19_boundary for all grids; C19_fresh for all meshes, orders and contents of infinite elements."
 },
 "C50": {
  "status": "partial",
  "note": "False: the option is ignored (C50_ignored_false, C50_not_visited_false). Without boundary interface segments all are visited (C50_all_partial)."
 },
 "C55": {
  "status": "proved",
  "note": "C55_created for grids made by the factory, C55_same for any grid with different insertion numbers, C55_facet in every case."
 },
 "C22": {
  "status": "proved",
  "note": ""
 },
 "C51": {
  "status": "proved",
  "note": "2D and 3D, all interfaces."
 },
 "C23": {
  "status": "proved",
  "note": ""
 },
 "C56": {
  "status": "proved",
  "note": "The comment in the header says the opposite of what the function does; C56_documented_false shows that the documented answer is not the one returned."
 },
 "C24": {
  "status": "proved",
  "note": ""
 },
 "C57": {
  "status": "proved",
  "note": "C57_exact is the exact condition, also for requests at boundary edges, whose zones contain infinite cells; C57_linked the case of linked requests, C57_query the query in release builds; C57_in_order needs no connected zones. Orders in which a component comes too late are C182, debug builds C185, infinite cells with old marks C108."
 },
 "C26": {
  "status": "proved",
  "note": "2D, for every history of calls (C26_refinement) and for every state in which the new id is unused (C26_split). In 3D insertInInterface_ reads past the end of the id vector for every edge (C26_undefined_3d)."
 },
 "C27": {
  "status": "proved",
  "note": "2D; in 3D the code throws. C27_request for states reached by careful histories (as in C111_facets_partial), in which segments are facets; the host grid enters by its contract."
 },
 "C30": {
  "status": "proved",
  "note": "2D, explicit factory. The host grid enters by contracts for insertion and removal."
 },
 "C54": {
  "status": "proved",
  "note": "After any sequence of addInterface in any dimension (C54_added), after any history in 2D (C54_agree)."
 },
 "C28": {
  "status": "proved",
  "note": "Requests end with an outcome (vertex inserted, edge gone, extension given up); the stronger claim is C180."
 },
 "C29": {
  "status": "proved",
  "note": ""
 },
 "C58": {
  "status": "proved",
  "note": "All lists of requests in which no extension is given up."
 },
 "C59": {
  "status": "proved",
  "note": "Which edge a stored handle designates after a split is left open (CGAL): the theorems hold for all choices. Bulk requests and a second adapt() without postAdapt() are C183."
 },
 "C31": {
  "status": "proved",
  "note": "Exact arithmetic (an ordered field); exceptions and rounding are C112."
 },
 "C32": {
  "status": "proved",
  "note": ""
 },
 "C60": {
  "status": "proved",
  "note": "Shifts, positions and volumes in an ordered field. The other situations are C184."
 },
 "C61": {
  "status": "proved",
  "note": "All grids, shifts and states. That the stored flag may be the one for the moved positions is C151."
 },
 "C34": {
  "status": "proved",
  "note": "For all numbers of processes and elements whose product fits std::size_t; also for iteration over interior elements with fewer elements than processes. With one process everything is interior (C34_serial). Even distribution only in 2D; the claim for 3D is C158."
 },
 "C35": {
  "status": "proved",
  "note": "The clearing of maps runs over an array of maps; it is assumed to clear only maps (see C114_clear_false)."
 },
 "C36": {
  "status": "proved",
  "note": "MPI order of messages is assumed."
 },
 "C37": {
  "status": "proved",
  "note": "All meshes with at most two processes at each interface vertex, all schedules (C37_exchange). Junctions of three processes are C154."
 },
 "C62": {
  "status": "partial",
  "note": "False: ranks are computed anew from positions (C62_migrates_false); true only while number and order of the elements do not change (C62_kept_partial)."
 },
 "C38": {
  "status": "proved",
  "note": ""
 },
 "C39": {
  "status": "proved",
  "note": "All such sequences, with and without assertions (C39_owner)."
 },
 "C40": {
  "status": "proved",
  "note": "For all polygons: result inside the hull of the subject and left of all clip edges up to the tolerance (C40_inside); convex subjects lose nothing (C40_kept); without tolerance the result is exactly the intersection (C40_exact, C40_intersection, C40_triangles); subjects inside are returned up to rotation of the list (C40_unchanged). Exact arithmetic over any ordered field."
 },
 "C41": {
  "status": "proved",
  "note": "C41_cutset_measure: exactly, without tolerances; C41_cutset_tolerance, C41_cutset_bounds: with the tolerances of the code."
 },
 "C42": {
  "status": "proved",
  "note": "Exact arithmetic over any ordered field; also uniqueness, and the clipping loop never divides by zero."
 },
 "C43": {
  "status": "proved",
  "note": "Over the reals; 1e100 if there are no interface segments."
 },
 "C44": {
  "status": "proved",
  "note": ""
 },
 "C63": {
  "status": "proved",
  "note": "It depends on the radius ratio 30."
 },
 "C45": {
  "status": "proved",
  "note": "A longest edge and its center for segments, triangles and tetrahedra; independent of the storage order if the longest edge is unique; C45_ties_false shows that with ties the point does depend on the order (the statement allows this). Lengths are elements of an ordered field."
 },
 "C46": {
  "status": "partial",
  "note": "False: C46_false (two vertices before each other), C46_tolerance_false (incomparability not transitive for equal levels); C46_conflict gives the exact condition. Holds for equal levels and constraints and sums that are equal or differ by more than 1e-14 (C46_partial)."
 },
 "C64": {
  "status": "proved",
  "note": ""
 },
 "C47": {
  "status": "proved",
  "note": "Exact in every dimension and for every number of points: if the points lie on a sphere and the determinant exceeds 2^-52, centre and radius are those of the sphere (C47_exact, C47_determined, C47_operator for vertices, C47_element for elements of a closed interface); points in a plane give an infinite radius (C47_flat). What fails is C147. Rounding is not modelled."
 },
 "C48": {
  "status": "proved",
  "note": "The base class of dune-grid is not in the repository; its behaviour is an assumption of the model."
 },
 "C49": {
  "status": "proved",
  "note": "Sequentially consistent memory. Calls that overlap are C181."
 },
 "C52": {
  "status": "proved",
  "note": ""
 },
 "C53": {
  "status": "proved",
  "note": ""
 },
 "C65": {
  "status": "proved",
  "note": "Three-dimensional grids do not create intermediate elements."
 },
 "C66": {
  "status": "proved",
  "note": ""
 },
 "C67": {
  "status": "proved",
  "note": ""
 },
 "C68": {
  "status": "proved",
  "note": "The Jacobian class (C++ generated at run time) is an arbitrary function. C68_initial_false: the initial residual is never looked at."
 },
 "C69": {
  "status": "proved",
  "note": ""
 },
 "C70": {
  "status": "proved",
  "note": "Over an ordered field, with AffineGeometry's pseudo inverse; the triangulation is only assumed to mirror facets and to have distinct ids (Grid.Valid, shown for a concrete grid)."
 },
 "C71": {
  "status": "proved",
  "note": ""
 },
 "C72": {
  "status": "proved",
  "note": "For host facets of elements as built by the constructor of interface elements, including those on infinite cells."
 },
 "C73": {
  "status": "proved",
  "note": "C73_side; C73_normal_2d and C73_normal_3d for positively oriented elements, before normalisation. That dune-fem's '+' is the same side is not modelled."
 },
 "C74": {
  "status": "proved",
  "note": "For the C++ functions before the interpolation into the Lagrange space; C74_defined: there must be a shift for every interface vertex, otherwise the access is out of range (none)."
 },
 "C75": {
  "status": "proved",
  "note": "Proved for the class Distance, which is what distance(grid) gives the user. The older class DistanceFunction in utility.hh (not registered by the shipped modules) returns the gradient in reference coordinates: C75_reference_false, right only on translated reference elements."
 },
 "C76": {
  "status": "proved",
  "note": "The residual is any function of the degrees of freedom that only sees local ones."
 },
 "C77": {
  "status": "proved",
  "note": "C77_assembleC gives the block for every space."
 },
 "C78": {
  "status": "proved",
  "note": ""
 },
 "C79": {
  "status": "proved",
  "note": "The linear solver (UMFPACK) is any function that solves the system it is given."
 },
 "C80": {
  "status": "proved",
  "note": ""
 },
 "C81": {
  "status": "proved",
  "note": "Closed form of all calls, for every handle, every cut and every list of leaves. preAdapt, adapt and postAdapt are modelled in other modules."
 },
 "C82": {
  "status": "proved",
  "note": "For all triangulations of the same region; the handle is a model of dune-fem's constant one."
 },
 "C83": {
  "status": "proved",
  "note": ""
 },
 "C84": {
  "status": "proved",
  "note": "Triangulation of each part is CGAL's."
 },
 "C85": {
  "status": "proved",
  "note": "C85_unlisted: facets that are not listed get the id of the first face."
 },
 "C86": {
  "status": "proved",
  "note": ""
 },
 "C87": {
  "status": "proved",
  "note": "int overflow of the number of vertices and rounding are not modelled."
 },
 "C88": {
  "status": "proved",
  "note": "insertBoundarySegment and getGrid are not modelled."
 },
 "C89": {
  "status": "proved",
  "note": "CGAL's contract (the circulator runs through the incident cells, facets, vertices, each once) is a hypothesis; such circulators exist for every triangulation (exists_runsCells, exists_runsFacets, exists_runsVertices)."
 },
 "C90": {
  "status": "proved",
  "note": "In 3D isTip is always false."
 },
 "C91": {
  "status": "proved",
  "note": "For grids whose segments have flagged vertices."
 },
 "C92": {
  "status": "proved",
  "note": ""
 },
 "C93": {
  "status": "proved",
  "note": ""
 },
 "C94": {
  "status": "proved",
  "note": "3D throws."
 },
 "C95": {
  "status": "proved",
  "note": "C95_dot (and C95_dot_owners: only the values on the owners matter), C95_norm, C95_apply, C95_applyscaleadd. Assumed of dune-fem: scalarProductDofs sums owned dofs over all processes, communicate copies from the owner; assumed of the assembly: complete rows on the owner (C96_incomplete_false shows that this is needed). Rounding is not modelled."
 },
 "C96": {
  "status": "proved",
  "note": "C96_lockstep (every number of steps), C96_solve, C96_rhs (right hand side only right on the owners, for methods that begin with the defect). C96_incomplete_false: without complete rows on the owner the operator is not the global one, so the proviso is needed."
 },
 "C97": {
  "status": "partial",
  "note": "False: the result object of the solver is not looked at, so a solve that did not converge returns like one that did (C97_unconverged_false). C97_solution_partial: if the method finds a solution of the global system on one process, then every process gets its part of one, and its own rows are satisfied."
 },
 "C98": {
  "status": "proved",
  "note": "2D and 3D."
 },
 "C99": {
  "status": "proved",
  "note": "2D, explicit factory. The host grid enters by contracts."
 },
 "C100": {
  "status": "partial",
  "note": "Refuted: C100_length_false gives a triangle; C100_length_iff: right iff twice the area of the triangle is one."
 },
 "C101": {
  "status": "partial",
  "note": "Refuted: C101_interface_false; C101_interface_partial: the answer is right exactly for cc = 0."
 },
 "C102": {
  "status": "partial",
  "note": "Refuted: C102_false_3d; the factory keeps the order, so that C102_positive_3d_partial needs positively oriented input."
 },
 "C103": {
  "status": "partial",
  "note": "C103_consecutive_partial: if no inner facet was inserted both as interface and as boundary segment; C103_gap_false: otherwise there can be gaps."
 },
 "C104": {
  "status": "partial",
  "note": "Refuted: C104_outside_false (C104_inside_iff is the exact condition for staying inside) and C104_node_number_false (node numbers are ignored)."
 },
 "C105": {
  "status": "partial",
  "note": "Refuted: elements created by adapt have indeterminate insertion numbers; if they are equal the segment is visited twice, on the boundary possibly not at all (C105_false). C105_once_partial: once if the numbers differ."
 },
 "C106": {
  "status": "partial",
  "note": "C106_visited_partial: if neighbouring bulk elements have different insertion numbers, as in a created grid. C106_double_false: after adapt the (indeterminate) numbers may be equal, then an element is counted twice."
 },
 "C107": {
  "status": "partial",
  "note": "Refuted: mark(0, e) does not take back an earlier mark (C107_interface_zero_false). C107_interface_exact: the last non-zero mark counts; C107_interface_partial: right if no call passes 0."
 },
 "C108": {
  "status": "partial",
  "note": "Refuted: postAdapt does not reset infinite cells, so from the second cycle on requests at the boundary may share a number without being linked (C108_second_adapt_false). It holds for zones of leaf elements by C24_linked and C24_cycles."
 },
 "C109": {
  "status": "partial",
  "note": "Refuted: the segments are erased before their number is checked (C109_tip_false; exact effect in C109_other_vertices). C109_unchanged_partial: right for vertices without segments."
 },
 "C110": {
  "status": "partial",
  "note": "C110_cleared_partial: postAdapt of the bulk grid clears the queues and the bulk marks. Refuted: interface marks are left (C110_interface_marks_false), a cycle closed by postAdapt of the interface grid keeps the requests (C110_interface_cycle_false), crossings are queued again (C110_cross_false)."
 },
 "C111": {
  "status": "partial",
  "note": "C111_facets_partial: if no facet is added while its refinement is pending and a crossing vertex is joined with the third vertex. Refuted otherwise: C111_late_false, C111_cross_false."
 },
 "C112": {
  "status": "partial",
  "note": "Refuted: an exception after moving leaves the vertices moved (C112_thrown_false, C112_3d), the behaviour is undefined if the interface meets a corner (C112_undefined_false), and adding and subtracting a shift does not give the same number with rounding (C112_rounding_false)."
 },
 "C113": {
  "status": "partial",
  "note": "C113_positive_partial: if every cell has a removable vertex that is not queued yet; otherwise refuted (C113_positive_false). In 3D the exception leaves the vertices moved (C113_unchanged_false)."
 },
 "C114": {
  "status": "partial",
  "note": "C114_ghost_partial: without interface vertices; refuted with them (C114_interface_false). The loop that clears the maps runs over an array and passes its end (C114_clear_false)."
 },
 "C115": {
  "status": "partial",
  "note": "C115_complete_partial: without interface vertices. Refuted with them: ghosts due to the interface get nothing (C115_interface_false)."
 },
 "C116": {
  "status": "partial",
  "note": "Refuted: without assertions reading too much is not reported (C116_end_false), mixed alignment stores at misaligned addresses (C116_alignment_false), readStream after a read takes too many bytes (C116_readStream_false). C116_readStream_partial: right if nothing was read before."
 },
 "C117": {
  "status": "partial",
  "note": "Refuted by C117_cutset_false: triangles below the threshold are dropped. The bounds are in C41."
 },
 "C118": {
  "status": "partial",
  "note": "Refuted: vertices that are not interior keep 1e100 (C118_ghost_false, for all such vertices)."
 },
 "C119": {
  "status": "partial",
  "note": "Refuted: interface elements longer than 240 are to be coarsened whatever the maximum (C119_segment_unit_false); the minimum is a quarter of the shortest edge (C119_documented_minimum_false)."
 },
 "C120": {
  "status": "partial",
  "note": "Refuted: without a data handle the sequence number stays and resize does nothing (C120_unannounced_false)."
 },
 "C121": {
  "status": "partial",
  "note": "Refuted: the number is one less (C121_iterations_false), iter=0 fails (C121_zero_false), f_tol is only used if tol was given too (C121_ftol_false)."
 },
 "C122": {
  "status": "partial",
  "note": "Refuted: after ten steps the interface is moved although the check returned True (C122_unchecked_false); without functions nothing is adapted (C122_adapted_false); a Python list of shifts is repeated instead of doubled (C122_list_false)."
 },
 "C123": {
  "status": "partial",
  "note": "Refuted: the implicit factory sets no vertex flags (C123_implicit_false)."
 },
 "C124": {
  "status": "partial",
  "note": "Refuted if only one edge is too long: C124_false."
 },
 "C125": {
  "status": "partial",
  "note": "Refuted: vertices of the lowest level come first (C125_level_false) and corners may be chosen (C125_corner_false). C125_chosen_partial states what is chosen if the comparison is a strict weak ordering."
 },
 "C126": {
  "status": "partial",
  "note": "Refuted: C126_unresized_false."
 },
 "C127": {
  "status": "partial",
  "note": "Refuted: an element that vanished keeps its entry and has its former value when it comes back (C127_returned_false)."
 },
 "C128": {
  "status": "partial",
  "note": "Refuted: the callback is not called between the bulk and the interface scheme (C128_false)."
 },
 "C129": {
  "status": "partial",
  "note": "C129_elements_partial: zero as long as no interface intersection was bound. Refuted afterwards: bind(entity) keeps the value of the last facet (C129_entity_false)."
 },
 "C130": {
  "status": "partial",
  "note": "Refuted: outside() is called without asking for a neighbour (C130_boundary_false)."
 },
 "C131": {
  "status": "partial",
  "note": "Refuted: entries of shared degrees of freedom are exactly twice the quotient, since both sides add the column (C131_continuous, C131_continuous_false)."
 },
 "C132": {
  "status": "partial",
  "note": "Refuted: the callback is not called after the last reset (C132_update_false)."
 },
 "C133": {
  "status": "partial",
  "note": "Refuted: if the pattern shrinks old entries stay in the combined matrix (C133_stale_false)."
 },
 "C134": {
  "status": "partial",
  "note": "C134_interface_partial: if one of the segments contains the other. Refuted otherwise: it is the minimum of the lengths (C134_interface_false)."
 },
 "C135": {
  "status": "partial",
  "note": "C135_tolerance_partial: for elements with a part above the threshold. Refuted for small elements, which are not written at all (C135_small_false)."
 },
 "C136": {
  "status": "partial",
  "note": "Refuted at a sharp corner: C136_join_false."
 },
 "C137": {
  "status": "partial",
  "note": "Refuted: at a bent interface a neighbour may lie between the interface and its chord, then all facets go to one hole and an end point stays a null handle (C137_bent_false); the same if the two neighbours are joined by an edge of the star (C137_adjacent_false)."
 },
 "C138": {
  "status": "partial",
  "note": "Refuted on several processes (C138_parallel_false: local renumbering) and for the halves of a refined boundary edge (C138_refined_false); C138_parallel_partial gives a case that works."
 },
 "C139": {
  "status": "partial",
  "note": "Refuted: no facet is ever an interface facet since the vertices are not flagged (C139_interface_false); segments inserted before a point that is inserted again are stored under stale ids (C139_stale_false); C139_index_false. C139_segment_partial: stored under the right ids if no vertices follow."
 },
 "C140": {
  "status": "partial",
  "note": "Refuted: a new vertex has no valid id until the next update of the grid; then the inserted element is lost (C140_new_vertex_false)."
 },
 "C141": {
  "status": "partial",
  "note": "It visits all flagged vertices joined by any edge of the mesh (C141_vertices_flagged), so that the claim is refuted (C141_vertices_false) and the curvature of a straight interface is wrong next to another one (C141_curvature_false); C141_vertices_partial says when it holds."
 },
 "C142": {
  "status": "partial",
  "note": "Interface elements if the insertion numbers differ (C142_interface_partial, C142_interface_false). Refuted for the triangles of cut sets, all of which are equal (C142_middle_false), and for old elements, which are compared by a handle that belongs to a new element (C142_old_false)."
 },
 "C143": {
  "status": "partial",
  "note": "Refuted: an assignment between facets keeps the cached id of the target (C143_assign_false); seeds of old elements say they are valid but give another element (C143_old_false). C143_facet_copy_partial: facets whose id was not asked for before."
 },
 "C144": {
  "status": "partial",
  "note": "Refuted: copies lose the father (C144_copy_false), wrong at a straightened bend (C144_interface_false). C144_interface_partial: right if the element lies on the line of the father."
 },
 "C145": {
  "status": "partial",
  "note": "Refuted: the implicit factory ignores markers (C145_implicit_false); whenever the number of elements grows in an insertion some element has marker 0 (C145_refined_false). C145_values: after any sequence of insertions and removals all markers are old ones or 0."
 },
 "C146": {
  "status": "partial",
  "note": "Refuted: an extension gets 1 (C146_extend_false), joining two parts loses one of the markers (C146_join_false), reading the marker of a facet that is no longer an interface element makes it one (C146_read_false)."
 },
 "C147": {
  "status": "partial",
  "note": "Refuted: the threshold of the determinant is absolute, so that points 1e-5 apart on a circle are reported as flat (C147_small_false); after a flat vertex the centre is the one of the vertex before (C147_stale_center_false); an element at the boundary of the interface makes the element layout ask a boundary intersection for its outside element, which passes the end of a circulator (C147_element_boundary_false). C47 says what holds."
 },
 "C148": {
  "status": "partial",
  "note": "Refuted: for equal stored insertion numbers, which adaptation does not exclude, the interface elements differ (C148_false)."
 },
 "C149": {
  "status": "partial",
  "note": "Refuted: the two boundary intersections of such an element share an index (C149_equal_false), and an index is not below numBoundarySegments() (C149_range_false)."
 },
 "C150": {
  "status": "partial",
  "note": "Refuted: the pairing of vertices and components is shifted (C150_failed_false)."
 },
 "C151": {
  "status": "partial",
  "note": "Refuted: the flag is computed for the moved positions and kept, so corners can be queued (C151_corner_false) and straight vertices become corners for ever (C151_flag_false)."
 },
 "C152": {
  "status": "partial",
  "note": "Refuted: for equal insertion numbers it depends on the side (C152_side_false)."
 },
 "C153": {
  "status": "partial",
  "note": "Refuted: two copies of one stream free the buffer twice (C153_two_copies_false), a source used after its copy is gone or has grown reads freed memory (C153_source_false, C153_growth_false), self-assignment loses the contents (C153_self_false)."
 },
 "C154": {
  "status": "partial",
  "note": "Refuted: C154_junction_false, C154_false give a junction at which the lists of sender and receiver differ."
 },
 "C157": {
  "status": "partial",
  "note": "Refuted: in the unit square cut along a diagonal the corners at the ends of the diagonal get flag 0, because the other end is a third neighbour on the boundary (C157_false); any vertex with three neighbours on the boundary gets 0 (C157_three); in 3D no vertex ever gets flag 1 (C157_3d_false). What holds is C156."
 },
 "C158": {
  "status": "partial",
  "note": "Refuted: setRanks divides by number_of_cells(), which in 3D counts infinite cells too, so the last ranks get fewer elements or none (C158_false: cube of six tetrahedra on two processes, loads 6 and 0; C158_idle: whenever N*P is at most the number of all cells, process 0 has all elements). Holds: the load of a process is at most (all cells)/P + 1 (C158_load_partial)."
 },
 "C159": {
  "status": "proved",
  "note": "Interface elements under Describes: the iterator stops at the side that is the inside of the interface element (C19, C55)."
 },
 "C160": {
  "status": "proved",
  "note": "Connection of the elements at a vertex is a hypothesis; without it see C161."
 },
 "C161": {
  "status": "partial",
  "note": "Refuted: C161_false with two interface triangles that have only a vertex in common and belong to two processes; ghosts are only made at common edges, the vertex gets partition -1. C161_missing_partial says exactly which vertices are missing; for connected stars the claim is C160_interface_vertices."
 },
 "C162": {
  "status": "partial",
  "note": "Refuted: edges in 3D are not counted (C162_false, C162_edges_partial); interface/grid.hh:427-440 omits edges of the interface in 3D in the same way. The other codimensions are C163."
 },
 "C163": {
  "status": "proved",
  "note": ""
 },
 "C164": {
  "status": "partial",
  "note": "Refuted: the order of the slots of an element (info().cgalIndex) is only computed by setIds() at the end of adapt(); a removal reads it for all elements at the vertex, and elements created in the same call have an uninitialised one (C164_new_face_false, C164_false: two neighbours on a straight interface). What holds is C165."
 },
 "C166": {
  "status": "partial",
  "note": "Refuted: addInterface computes the indices of the interface grid before the partitions, so on several processes the new element is skipped and has no index on any process (C166_never_false for all grids, C166_false for two triangles). loadBalance() repairs it (C167)."
 },
 "C169": {
  "status": "partial",
  "note": "Refuted: for a domain with a triangular hole that touches the outer boundary in a vertex, infiniteNeighborMap joins the two infinite faces at each wedge of elements, so that the pointers at this vertex form two separate cycles. If an element of the other wedge starts with this vertex, createGrid throws that it was not found (C169_created_false); otherwise the grid is created and incidentElements leaves it out (C169_elements_false). What holds is C168 (no such vertex)."
 },
 "C170": {
  "status": "proved",
  "note": "The parser of dune-grid (text to lists) is an input of the model; coordinates in an ordered field; boundary ids are C85."
 },
 "C171": {
  "status": "partial",
  "note": "Refuted: the constructor with a stream ignores the value of generate; for every stream that can be reset but is not in the format it returns and the pointer grid_ is never initialised (C171_stream_false, for all orders and dimensions)."
 },
 "C172": {
  "status": "partial",
  "note": "Refuted: numParameters is 0 for every codimension, so parameter throws for every element and vertex of every file (C172_parameter_false); C172_file_false is a file with parameters that is read and whose first element has a parameter."
 },
 "C173": {
  "status": "partial",
  "note": "Refuted: both factories return the boundary id, which is 0 for all intersections without calls of addBoundaryId (C173_zero_false) and the id of the file for DGF files (C173_dgf_false). boundarySegmentIndex is the number of the call (C15)."
 },
 "C174": {
  "status": "proved",
  "note": "What CGAL does when a vertex is inserted is any relation in which cells with the same handle keep their info (Retri)."
 },
 "C175": {
  "status": "partial",
  "note": "Refuted: elements that CGAL does not make are ignored and the elements made instead have an indeterminate insertion index (C175_diagonal_false); a vertex inserted after the elements leaves the number on a cell with other vertices (C175_later_vertex_false). True part: C174."
 },
 "C176": {
  "status": "proved",
  "note": "Parsing of words is that of Gmsh.generate; coordinates are in an ordered field; the file is any text with the sections of nodes and elements. The neighbours of the elements are C13. Quadrilaterals are excluded (C178)."
 },
 "C177": {
  "status": "partial",
  "note": "Refuted: the reader never calls addBoundaryId, so boundaryId is 0 for all intersections of all files (C177_tags_false); C177_square_false is a file where the facet is a boundary segment with tag 3. The domain marker of interface segments is the tag (C176)."
 },
 "C178": {
  "status": "partial",
  "note": "Refuted: in a release build the geometry type is only asserted; a quadrilateral becomes the triangle of its first three corners without an error (C178_quadrilateral_false)."
 },
 "C179": {
  "status": "partial",
  "note": "Refuted: this constructor never sets the pointer to the factory; the behaviour is undefined for all files with nodes (C179_stream_false)."
 },
 "C180": {
  "status": "partial",
  "note": "Refuted: false if vertices are only removed (C180_removal_false), if all requested edges are gone (C180_stale_false), if an extension is given up (C180_failed_false), and for adapt(handle) (C180_handle_false). True part: C28."
 },
 "C181": {
  "status": "partial",
  "note": "Refuted: overlapping calls share a static vector, any call can return the answer of any other (C181_overlap_false, C181_wrong_answer_false), already with sequentially consistent memory. True part: C49."
 },
 "C182": {
  "status": "partial",
  "note": "Refuted: a default-constructed component with an indeterminate grid pointer is used if the request behind comes first; C182_order_false gives two requests on a fresh grid. Exact condition: C57_exact."
 },
 "C183": {
  "status": "partial",
  "note": "Refuted: bulk requests, whose new vertices have an indeterminate id (C183_bulk_false), and a second adapt() without postAdapt() (C183_cached_false). True part: C59."
 },
 "C184": {
  "status": "partial",
  "note": "Refuted: a crossing whose point is not on the interface edge is discarded (C184_outside_false), a queued vertex hides its cells (C184_queued_false). True part: C60."
 },
 "C185": {
  "status": "partial",
  "note": "Refuted: a request that joins two earlier ones leaves a gap in the component numbers; the assertion that compares the number with the size of the map fails for the components behind it (C185_gap_false). In release builds the component is returned (C57_query)."
 },
 "C186": {
  "status": "proved",
  "note": "The twist utility always returns 0; C186_only shows that no other twist is right. The corners of an intersection and of the faces of its elements are those of the RefElem and InterfaceGeo models."
 },
 "C187": {
  "status": "proved",
  "note": "CGAL's insertion functions are modelled by their documented effect on the elements. A request that is carried out for another edge than the one it was made for (C183) is not covered. Positions in an ordered field."
 },
 "C188": {
  "status": "partial",
  "note": "Refuted: where outside the interval from 0 to 1 inverts elements (C188_where_false), where = 1 and a position on an edge give degenerate elements (C188_corner_false, C188_position_false), a position outside the domain makes it grow (C188_outside_false). None of the arguments is checked. True part: C187."
 },
 "C189": {
  "status": "proved",
  "note": "That CGAL fills a closed hole with a triangulation whose boundary is that of the hole is an assumption (Fills); the theorem concerns the mesh as a whole. In 3D the removal throws."
 },
 "C190": {
  "status": "partial",
  "note": "Refuted: a corner of the domain is cut off (C190_corner_false); removeVertex does not check. True part: C189."
 },
 "C191": {
  "status": "proved",
  "note": "Any dimension, exact arithmetic. C192 shows that the condition on the boundary is needed; C184 and C113 show why the conditions on the answer are needed in two dimensions."
 },
 "C192": {
  "status": "partial",
  "note": "Refuted: three triangles around a vertex can be turned around it until the last covers the first, all areas stay positive (C192_boundary_false). What holds is C191."
 },
 "C194": {
  "status": "partial",
  "note": "Refuted: adapt() makes no request if the longest edge of a marked element is an interface edge; a triangle whose longest edge is on the interface is not refined by any number of steps (C194_interface_false). What holds is C193_refined."
 },
 "C195": {
  "status": "proved",
  "note": "Joins the models of marking, components, insertion, removal, assignment of components and transfer. Execution of adapt_ as Exec.Runs, hypotheses on grid and requests as Exec.Sound; concrete execution in Conserve/Examples. Requests of addToInterface that fail are excluded (C150), clipping without tolerances (C135 for tolerances)."
 },
 "C196": {
  "status": "proved",
  "note": "Induction over histories with C195 and C191. Every adaptation meets the hypotheses of C195 on its requests (no marks left from before: C108)."
 },
 "C197": {
  "status": "proved",
  "note": "Joins the models of interface insertion and removal, of the map of new interface elements and of the transfer loop. Hypotheses on the requests in InterfaceTransfer.Requests; concrete adaptation that refines and coarsens in InterfaceTransfer/Examples. Requests of addToInterface: C199."
 },
 "C198": {
  "status": "proved",
  "note": "Induction over histories with C197."
 },
 "C199": {
  "status": "proved",
  "note": "One request of addToInterface in the middle of a bulk element; the component is the copy of an interface element at the vertex, as addToInterface chooses it."
 },
 "C200": {
  "status": "partial",
  "note": "Refuted: an element of length 4 that continues an element of length 2 in the same direction gets half of its value (C200_value_false): adapt(handle) restricts with the old element as if it were a part of the new one. What holds is C199."
 },
 "C201": {
  "status": "proved",
  "note": "Induction over histories with C187 and C191. Removals do not occur in three dimensions."
 },
 "C202": {
  "status": "proved",
  "note": "Any dimension, over the real numbers. Elements are given by the ids of their vertices; the interface by a predicate on facets."
 },
 "C203": {
  "status": "proved",
  "note": "Two dimensions (interface operations in 3D are undefined, C26; no removal in 3D). Mesh and interface are one state; that the edges of the triangulation behave as InterfaceOps assumes is derived from the elements. What CGAL does to fill a hole is assumed as in C57 (Fills)."
 },
 "C204": {
  "status": "partial",
  "note": "Refuted: if the interface is the boundary of a triangle, removing one of its corners leaves a single interface element, and the two sides become one (C204_false). If the two interface elements form a straight line, nothing changes (C203)."
 },
 "C206": {
  "status": "partial",
  "note": "Refuted: the name of the generated module is computed from the types only and not from the header, so after monolithicSolve(iterative=True) a call with the same types and iterative=False works with the iterative implementation, and the other way round (C206_iterative_false, C206_earlier_flag). True if all earlier calls with these types gave the same flag (C206_iterative_partial)."
 },
 "C207": {
  "status": "partial",
  "note": "Refuted: while the Jacobian is assembled the callback is called twice for each degree of freedom at the interface elements of the process and of the elements next to them; a process without a part of the interface does not call it at all (C207_collective_false, C207_count). The sequences of operations agree if and only if these numbers agree (C207_collective_partial)."
 },
 "C208": {
  "status": "proved",
  "note": "Combinatorial part for every dimension (C208_finer, C208_parts, C208_sides, C208_number, C208_boundary); C208_addInterface and C208_history for the 2D grid with its list of interface segments. History steps as in C203: vertices of the interface are removed only if they lie on a straight line (see C204)."
 },
 "C209": {
  "status": "proved",
  "note": "Requests for edges of the interface are excluded: there the code reads outside of a vector in 3D (C26_undefined_3d). C209_adapt holds in every dimension."
 },
 "C210": {
  "status": "proved",
  "note": "Under the conditions of C195 (a triangulation, valid requests, no marks from before). 3D not covered."
 },
 "C211": {
  "status": "partial",
  "note": "Refuted: the flags are set inside adapt() only, so before adapt() no element is flagged while elements do vanish (C211_before_false). What holds of the flags after the marking is C210."
 },
 "C212": {
  "status": "partial",
  "note": "Refuted: new elements are leaf elements of the view for which isLeaf() is false until postAdapt(); in the example all of them (C212_view_false). C212_isLeaf says for which elements it holds."
 },
 "C214": {
  "status": "partial",
  "note": "Refuted: C214_moveInterface_false gives a square of four triangles with the tip of the interface in its centre; the process that owns the two triangles away from the interface has the tip as a border vertex but does not move it, so the two processes see its elements at different places. What holds: C214_stays_partial (an interface vertex moves exactly on the processes that have one of its interface elements) and C213."
 },
 "C216": {
  "status": "partial",
  "note": "Refuted: C216_exact_false (only the corners, the midpoints of the edges and the centre of an interface element are looked at; for a vertex above another point of the element the value is too large). The code calls it an estimate. What holds is C215."
 },
 "C218": {
  "status": "partial",
  "note": "Refuted: at a tip of the interface on the boundary of a partition, the process without interface elements evaluates the index of the interface vertex and gets an InvalidStateException (C218_edgeMovement_false). C218_exception_partial: this happens on every element with an interface vertex that is not in the interface grid of the process; otherwise C217_movement holds."
 },
 "C220": {
  "status": "partial",
  "note": "Refuted: the entries are read at dim*i+d after the first one, whatever the strides are. A transposed array is used with rows and columns exchanged (C220_arrays_false), a slice of columns gives wrong rows and shifts[::-1] is read outside of its memory (C220_views_false). C220_place_partial says what is read in general; contiguous arrays are C219."
 },
 "C221": {
  "status": "proved",
  "note": "Model: the marks of all elements and interface elements, the requests for their longest edges, and the insertion loop in which each request is carried out or dropped. A request counts as dropped if its edge is not found by its stored handle (mmesh.hh:1234-1243); C183 deals with requests that are carried out for a wrong edge. The limit must be the same everywhere: with distance dependent limits the longest edge of the grid may be permitted. Proof: halving an edge longer than H creates edges whose squared lengths are at most the largest one minus H²/4."
 },
 "C222": {
  "status": "partial",
  "note": "Refuted: an interface of one element of length 300 is marked for coarsening (radius ratio of interface elements depends on the unit, C119), but none of its vertices is removable, so that nothing happens and markElements() returns true forever. Holds if interface elements marked for coarsening have a vertex with two interface elements."
 },
 "C223": {
  "status": "proved",
  "note": "The number of simplices is the number of sets of k+1 vertices that are contained in an element. As in C05 and C22, that the iterations of the grid visit every entity once is a hypothesis (C19, C159), and every vertex belongs to an element."
 },
 "C224": {
  "status": "partial",
  "note": "Refuted: size(tetrahedron) of a 2D grid and size(triangle) of the interface of a 2D grid read sizeOfCodim_[-1] (an assertion in debug builds). A copy of the bulk index set has no indices of facets and edges, so that index() throws; sizes and the indices of elements and vertices are kept."
 },
 "C225": {
  "status": "proved",
  "note": "All steps of the insertion loop of C187, in every dimension: edges, points inside an element, points outside of the grid, dropped requests. The counts are those of C223. Removal of vertices is not covered."
 },
 "C226": {
  "status": "proved",
  "note": "Bulk refinement of marked elements by the longest edge. Hypotheses: a process has at least its interior elements and their neighbours across facets, marks agree on common elements, no request is dropped (C188 and C222 describe when requests are dropped), no coarsening and no interface requests. C226_possible shows that runs with these properties exist for all marks; C226_grid is the statement about the whole grid."
 },
 "C227": {
  "status": "partial",
  "note": "Refuted: requests are not communicated. C227_ghost_false: an element is halved on its owner because of a neighbour that the other process does not have; C227_owners_false: every process distributes its own, different triangulation anew, and the interior elements do not add up; C227_ids_false: two different new vertices get the same id; C227_space_false: in 3D an edge of an own element may be divided because of an element that is not present. What does hold is C226."
 },
 "C228": {
  "status": "proved",
  "note": "The facets are visited in descending order of the slots of CGAL, which is not the order of indexInInside(). A ghost that was added because of the interface may have no intersections at all (example beside C228_symmetric). C228_visible, C228_outside and C228_symmetric use the partitions of C35."
 },
 "C229": {
  "status": "proved",
  "note": "Hypotheses on the grid (Mates, Fits2, Fits3): neighbours are mutual, have one facet in common and lie on different sides of it, elements are positively oriented; these are what C13, C14 and C187 give. C229_sum is the statement for any flux, the others use the normals of the model (C10)."
 },
 "C230": {
  "status": "proved",
  "note": "C230_sum for every antisymmetric flux and every distribution, C230_mass for a finite volume step, C230_possible shows that the hypotheses on a process are always met. Fluxes depend on the vertex sets of the two elements; the normals of the interface intersections are not used (at a junction they are not opposite)."
 },
 "C231": {
  "status": "proved",
  "note": "C231_agree, C231_refine (with C226); C231_border shows that the required positive largest distance is given on every process with a border vertex. In the model a division by a largest distance of zero would give zero, in the code NaN: excluded by hypothesis."
 },
 "C232": {
  "status": "partial",
  "note": "Refuted: C232_serial_false, C232_ghost_false and C232_return_false for a fan of four triangles on two processes without interface (thresholds come from the edges present on the process), C232_far_false because vertices at the border of a process keep the value 1e100, which is then the largest distance. The true part is C231."
 },
 "C233": {
  "status": "proved",
  "note": "The corners are those at the time of the construction. Copies and assignments of facets do not keep this, see C143."
 }
}