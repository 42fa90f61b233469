# Formal model of dune-mmesh: design

## Layout

* `properties.jsonl`: the English properties (C01, C02, ...).
* `lean/Verif/<Topic>/Model.lean`: the model of one part of the code. Every definition cites the file and
  lines of `/repo` it models and says where it simplifies.
* `lean/Verif/<Topic>/Lemmas.lean` (where needed): helper lemmas.
* `lean/Verif/<Topic>/Props.lean`: the specification vocabulary, the property theorems and, beside each
  theorem, an `example` showing a concrete non-trivial case that meets its hypotheses.
* `MANIFEST.json`: property -> theorems; `seeded/LOG.jsonl`: record of the seeded-bug experiments.

## Trusted base

* Lean 4.33 kernel and the Mathlib modules imported (their theorems are kernel-checked too).
* Axioms: at most `propext`, `Classical.choice`, `Quot.sound` (Lean's standard three). No new ones are added.
* The reading of the C++ source: nothing was compiled or run; the tie between model and code is the citation
  in each definition.
* Arithmetic: `double` is modelled by an arbitrary ordered field (or by the reals / rationals where square
  roots or computation are needed). Rounding is NOT modelled. `size_t` is modelled by `Nat` unless wrap-around
  matters (hashes use 64 bit words).
* CGAL is not modelled as an algorithm: a triangulation is an arbitrary finite list of cells with vertex
  handles, neighbours and infos; what CGAL operations are assumed to do is stated at each definition.
* MPI is modelled as reliable, ordered point-to-point delivery.
* DUNE reference elements are modelled by their published numbering tables (simplices of dimension 1..3).

## Properties and how each is handled

| id | model | proof |
|----|-------|-------|
| C01 | `MultiId`: storage of four numbers + size, comparison loops | comparison loops characterised by list equality / order |
| C02 | `MultiId` with cached hash (64 bit words), object store with operations construct/copy/assign/hash | invariant "cache is sentinel or true hash" by induction over operation lists |
| C03 | id set: next id counter, vertices with optional preset ids, create/remove/update steps | invariant over histories |
| C04 | `subId` formulas versus sorted vertex ids of the sub-entity | permutation/sorting argument for all id assignments |
| C05 | index update loops over elements/vertices/facets with an id map | fold invariants: map values are `0..n-1` in insertion order |
| C06 | subIndex lookups versus index of sub-entity | uses C04/C07 |
| C07, C08 | index conversions | all permutations of 3/4 indices, lifted to all id assignments |
| C09 | corner lists + affine maps | list of corners of facet equals reference sub-list of element corners |
| C10, C11 | polynomials over an ordered field | `ring`, `nlinarith`; failing scaling of C11 shown by witness |
| C12 | the three counting functions | binomial identity; negation for interface entities |
| C13 | `addFacetToMap` fold over the facets of the element list, infinite cells | fold invariant |
| C14 | orientation swap | ordered field; 3D negation |
| C15-C17 | factory maps as association lists with the calls as operations | fold invariants; negations by witness |
| C18 | parser of one element line with out-of-range access as distinct outcome | list reasoning; negation for malformed lines |
| C19 | iteration over (cell, index) pairs with the filter of the iterator | counting; negation for equal insertion numbers |
| C20 | visited-set iteration | induction |
| C21 | index map `facet -> (opposite vertex -> index)`, `outside` walk | induction on the walk |
| C22 | interface index update loops | fold invariants |
| C23 | mark stores | operation lists; negation for interface `mark(0)` |
| C24 | marking sweeps over conflict zones, loop until no conflict | termination measure; connectivity invariant |
| C25 | recursive neighbour search | reachability |
| C26, C27, C30 | interface segment map and vertex flags with operations | invariants over histories; negation for tips/junctions |
| C28, C29 | request queues and the adapt cycle | invariants; negation for pure removal |
| C31-C33 | vertex position map, index set, control flow paths including exceptions | group arithmetic; negation for exceptions |
| C34-C37 | ranks, links, pack/unpack on all processes | arithmetic of `i*P/N`; sequence equality; negation at triple junctions |
| C38, C39 | byte buffer with positions and ownership | refinement to a queue; negation for copy-of-a-copy |
| C40-C42 | clipping over an ordered field | invariants of the clip loop |
| C43 | point/segment distance over the reals | optimality of projection |
| C44-C46 | decision logic over an ordered field | case analysis; negation for the comparator |
| C47 | normal equations | linear algebra |
| C48 | map with resize by sequence number | invariants |
| C49 | two-thread interleaving semantics of `isInterface` with its static buffer | negation by schedule; sequential partial |
| C50, C51 | iterator filters, segment numbering | negation by witness, partial |
| C52, C53 | Python loops | induction on the iteration bound |
| C54, C55 | the three interface queries, the two views of a facet | histories of C30; negation for equal insertion numbers |
| C56-C59 | adapt cycle: preAdapt, components of requests, pairing of new elements with requests, edges of requests | list invariants over the whole cycle; negations by witness |
| C60, C61 | queues filled by the movement checks | case analysis over all cells and vertices; negations by witness |
| C62 | ranks before and after an adaptation | arithmetic; negation by witness |
| C63, C64 | bisection of the longest edge, choice of the vertex to remove | real inequalities; negations by witness |
| C65, C66 | same model as C48, ids of intermediate elements | case analysis, invariant over histories |
| C67 | Irons-Tuck update over real vectors | field arithmetic |
| C68, C69 | Newton loop; iterative solver with a record of its calls | induction on the number of passes |
| C70-C74 | skeleton and trace functions with their binding state, local facet geometries with the pseudo inverse, `normals`, movement functions, over an abstract triangulation with mirrored facets | conformity of the two local facet geometries (C09); case distinction on the insertion numbers |
| C75 | affine geometry of an element, interpolation of vertex distances, both `jacobian` functions | linear algebra: inverse Jacobian applied from the left and right |
| C76-C79 | `assembleB`, `assembleC`, `update` with degrees of freedom, callback and residual as functions; the Newton loop of `monolithicSolve`; the combined sparse matrix and its reuse | closed forms of the loops by induction; a column is written only for local degrees of freedom; counting of writes for shared ones; invariant that values are restored |
| C80-C83 | `intersectionVolume`, the loops of both `adapt(handle)` with an arbitrary handle, the piecewise constant handle of dune-fem, cut sets | the area of a convex polygon is the Lebesgue measure of its hull (induction on the number of corners, cutting off a corner); closed form of the calls; sums over two triangulations of the same region exchanged |
| C84 | `remeshHoleConstrained`: the sorting of the facets, the two polygons given to CGAL, the gluing loop | closed form of the sorted lists for a boundary that is a rotation of two paths; negations for bent interfaces and for adjacent end points |
| C85 | the DGF reader, `addBoundaryId`, `boundarySegmentIndex`, `boundaryId`, local numbering of boundary facets | closed form of the maps; negations for several processes and refined edges |
| C86, C87 | the implicit factory over a list of vertices, the loop of the structured factory with the multi-index of dune-grid | invariant over histories; induction on the dimension for the order of the multi-indices |
| C88 | the factory of the interface grid over a list of host vertices | invariant over histories; negation for vertices that are new |
| C89-C91 | the incident iterators (container, counter, end counter) over lists given by CGAL, `isTip`, `isInterface(edge)`, `isOnInterface` | closed form of the loops; sorted ids determine the vertex set; negation with a mesh of six triangles |
| C92-C94 | Entity objects are records of a handle, a cached id, corners and a father; the host grid at the moment of a call is an argument | comparison is proved equivalent to equality of vertex sets from what CGAL guarantees about neighbours; copies and seeds by cases on the cached values; the geometry in the father by solving the normal equations exactly over a field. Objects older than the grid are covered by two triangulations, before and after the split of an edge. |
| C95-C97 | Vectors and matrices of all processes as functions of the process; a solver is any function from the results seen so far to the next operation | sums over processes are exchanged with sums over dofs, only the owner contributes; induction over the number of operations relates the states of all processes to the state of one process with the global matrix. What dune-fem does (scalarProductDofs, communicate) is part of the trusted base. |
| C98-C99 | Stored elements with insertion index and marker, any sorted permutation, creation of cells; histories of calls on the interface with vertex positions; what CGAL does to infos of cells as a contract | induction over calls, sorting is a permutation; invariant of histories that every segment lies on one with its marker, and that the points of a segment stay covered; pigeonhole on handles for lost markers |
| C100-C154 | Claims that users would expect in addition to C11-C99 and that turned out false of the code in some case: each belongs to the property it was split from and uses its model | refuted by a concrete valid state or for all states (`_false`), with the condition under which the claim holds (`_partial`, `_iff`) |
| C155 | Corners of an interface element and of an intersection as lists of points, in the order in which the constructors take them | closed form of the constructors on sorted ids; the maps are affine, so equality of the corners gives equality everywhere; neighbours from C21 |
| C156-C157 | The boundary flag over the circulator lists of a triangulation and real positions | norms of sums of unit vectors by the scalar product; counting of neighbours by the link of a vertex in a closed triangulation; unit square as counterexample |
| C158 | Ranks divided by the number of all CGAL cells in 3D, infinite ones included | bound on the load for all sizes; cube of six tetrahedra as counterexample |
| C159-C161 | Iteration over partitions of elements, facets, vertices and interface elements, over the partitions computed and the interior iterators | filters over ranges; table of dune-grid as specification; connected stars by paths; two triangles with one common vertex as counterexample |
| C162-C163 | `ghostSize` over these iterations | counting; edges in 3D as counterexample |
| C164-C165 | `NewFaces`: faces as objects with vertices and the stored order of slots (arbitrary numbers for faces created in the call), conversions with bounds checks, search for the interface elements at a vertex, removal; host operations by a contract | old faces keep a permutation by induction over the operations of the call; for permutations a table of all cases, then the list of the circulator; negation with a straight interface whose two inner vertices are removed |
| C166-C167 | `AddParallel`: end of `addInterface` and `loadBalance` on a process, over the partitions of `Parallel`, the iteration of `PartIter` and the index set of `InterfaceIndexSet` | an element has an index exactly if it is visited (from C22), visited exactly if not absent; C35 for the partitions; two triangles on two processes as counterexample |
| C168-C169 | `Circulate`: the pointers from vertices to faces set by the explicit factory in 2D, CGAL's face, edge and vertex circulators, `is_edge`, `is_face` and `checkOccurenceOfAllElements`; a surface with all neighbours and one orientation, on which turning is a permutation; the factory builds one because the numbers of edges from and to a vertex are equal. | proved for all planar meshes with connected fans; refuted for a domain whose boundary touches itself |
| C170-C172 | `Dgf`: the constructors of DGFGridFactory over any result of dune-grid's parser; the calls of the factory are those of `Markers` | case analysis on the outcome, C98 for the elements; C171 and C172 are refuted |
| C173 | `BoundaryIds/Insertion`: `insertionIndex(intersection)` is the boundary id | refuted for all lists of segments |
| C174-C175 | `Implicit/Elements`: cells as an arbitrary triangulation that CGAL rewrites at each insertion, `insertElement` as a write to the cell found | induction over the calls; C175 is refuted with a square and its other diagonal |
| C176-C179 | `Gmsh/Grid`: the calls of the reader passed to the segments and elements of the explicit factory; `Sheet` says what a file of a mesh is | composition of C18, C16, C98 and the facets of `SegBoundary`; C177 to C179 are refuted |
| C180-C185 | the false parts of C28, C49, C57, C59, C60; `ConnComp/Exact` for the query of a component | refuted by witnesses; C57_exact by an invariant over the iteration |
| C186 | `InterfaceGeo/Twist`: the twist utility, corners of intersections and of the faces of inside and outside elements | the two corner lists are equal by the numbering of sorted vertices; uniqueness by injectivity of the corners |
| C191, C192 | `MoveGeo`: positions of a mesh as in `Refine` (any dimension) moved by shifts, composed with `Movement` | the number of elements that contain a point is a sum over the facets, joined with a fixed point, in which the two sides of inner facets cancel, so it does not change; a point in two faces could be moved inside two elements by a small shift of an inner vertex; C192 by a witness |
| C193, C194 | `Refine/Global`: `globalRefine` with the loop of `adapt()` over marked elements, on the meshes of `Refine` | nestedness holds for one insertion (barycentric coordinates) and is transitive; requests are distinct edges of the mesh and an insertion destroys only its own edge; C194 by a witness |
| C195 | `Conserve`: 2D `adapt(handle)` as a whole, an execution joins `Components.Marking`, `ConnComp.Build`, the insertions and removals of `Refine`, the map of created elements and `Transfer.adaptTransfer` | invariant over both loops: every element is old, or a request accounts for it: all old elements that overlap with it are in zones of linked requests; the map assigns such a request to every new element; with C57 the component is complete, with C82 and the area formula of C41 the values follow |
| C196 | `Conserve/History`: histories of adaptations (`Exec`) and movements | induction: C195's invariant gives a proper mesh after an adaptation, C191 after a movement |
| C197 | `InterfaceTransfer`: the operations of `InterfaceOps` with positions, copies of old elements and the map of new interface elements, then the loop `iTransfer` of the interface grid's `adapt(handle)` | invariant over both loops: the interface is proper, covers the same points, and each element is old, a part of one old element, or the union of the two old elements at a removed vertex, with the right component; then C83 gives the values |
| C198 | `InterfaceTransfer/History`: histories of such adaptations and of movements that keep the interface proper | induction with C197 |
| C199, C200 | `InterfaceTransfer/Extend`: the processing of a request of `addToInterface` with the transfer after it | the exact value from the loop; C200 refuted by an extension longer than the element it continues |
| C201 | `MoveGeo/History`: histories of refinements (`Refine`) and checked movements in three dimensions | induction: C187 gives a proper mesh after a refinement, C191 after a movement; no element occurs twice since inserted vertices are new |
| C202 | `Sides/{Model,Star,Local,Props,Regions}`: elements connected through facets that are not interface elements, any dimension | elements at an inner vertex are connected through facets at the vertex (the star is fan-like: otherwise moving the vertex towards one part leaves a gap, C191); a point that is not a vertex is made one by inserting it; so the side is locally constant on the domain without the interface, and connected sets stay on one side |
| C203, C204 | `Sides/{Grid,GridProps,History,Examples}`: mesh (`Refine`) and interface (`InterfaceOps`) as one state; the contracts on edges are derived from the elements | invariant (proper mesh, edges of elements, interface elements are edges), every operation keeps domain and points of the interface, then C202; C204 refuted by a triangular interface |
| C205, C206 | `Generated`: the functions that load a generated module, its name, its content and the modules loaded so far in the process; dune-common's `load` and the absence of collisions of `md5`/`hashIt` are assumptions | lookup under a name gives the source of the first call with this name (induction over the history); equal names give equal classes (the names of the types are compared as texts); C206 refuted by two calls with the same types |
| C207 | `Jacobian/Calls`: the calls of the callback and the collective operations of one process in `monolithicSolve(iterative=True)` | count by induction over the loops; refuted by a process without a part of the interface |
| C208 | `Sides/Add`: `withFacet`, the interface of `Sides` with one more facet, and `addInterface` of `InterfaceOps` on the 2D grid | a facet belongs to at most two elements; paths that avoid the new facet, counting of classes; induction over the history |
| C209 | `Sides/Space`: `isInterface(edge)` in 3D on the list of segments; `Refine.Run`, movements and `addInterface` together | sorted keys of length three; an interface facet stays a facet of one of the new elements; C202, C208 and induction over the history |
| C210, C211, C212 | `Conserve/Flags`: the flags of the marking and `isNew` in the executions of C195; `isLeaf` | the invariants of the loops; an element that is gone overlaps with a new one, hence lies in a zone; C211, C212 by the example execution |
| C213, C214 | `MoveParallel`: calls of `moveVertices` and `moveInterface` on every process, over the vertices its iterators visit | induction over the calls; vertices of elements that a process has are visited (C160); C214 by a square with a tip in its centre |
| C215, C216 | `Distance/Space`: `computeDistance` and `update` in 3D over the reals | the value is the distance to one of seven points; every point of a triangle is within h/(2√3) of one of them (four subtriangles, weighted sum of the squared distances to the corners); C216 by a vertex above a triangle |
| C217, C218 | `MoveParallel/Coupling`: the index set of the interface grid on each process, `edgeMovement`, `interfaceEdgeMovement` | the elements of the index set are the interface elements that are present (C22 on this list); C218 on the tip mesh of C214 |
| C219, C220 | `Trace/Arrays`: arrays with strides, reading the displacements in `edgeMovement` and `interfaceEdgeMovement` | index computation for contiguous arrays, composed with C74; C220 by a transposed array, a slice and a reversed array |
| C221, C222 | `Refine/Terminate`: passes of `markElements()` and `adapt()` in 3D, with dropped requests; `Refine/Stuck`: marks in 2D | halving a long edge keeps new edges shorter than the longest by a fixed amount: induction on the level, then on the number of longest edges; C222 by two triangles with one interface element |
| C223, C224 | `IndexSet/Sizes`: `size(GeometryType)`, `types`, copies of both index sets | counting the sets of vertices contained in elements by the numberings of C05 and C22; C224 by the array access with index -1 and the map that is not copied |
| C225 | `Refine/Euler`: the sets of vertices of elements before and after an insertion | alternating sums over the sets of vertices, with the sign-reversing map that adds or removes one end point of the edge; induction over the insertion loop |
| C226, C227 | `AdaptParallel`: the requests of one process are made for the marked elements present on it; the insertion loop of `Refine` on the copy of every process | an element is followed through the loop by a function that only sees the requests at its own edges, in 2D these come from elements that are present; C227 by witnesses |
| C228 | `IntersectionIter`: the iterator as a counter, its loops, with the partitions of `Parallel` | the loop is described by the slots that are left; termination and the visited set by induction; partitions by C35 |
| C229 | `IntersectionIter/Flux`: loops of a user over interior elements and their intersections, normals of `Normals`, partitions of `Parallel` | C228 and C35 turn the sums of all processes into one over all facets; the two sides of a facet cancel (an involution), with C10 for the normals |
| C230 | `InterfaceIndexSet/Sums`: loops of a user over interior interface elements and their intersections on each process (index set made from the interior and ghost elements), partitions of `Parallel` | C21 gives the terms of one element as a sum over the elements it meets; C35 shows that these are present on the process; pairs of elements cancel (an involution), also at junctions |
| C231, C232 | `Indicator/Processes`: indicator, edges, vertices and distances of each process (from `Indicator`, `Distance` and the elements present by `AdaptParallel`) | limits with factor 1 do not depend on the distance, then C226; a fan of four elements on two processes on which thresholds, decisions and the result differ |
| C233 | `Entity/Props`: objects with their cached ids, stored old elements | case analysis of the cached id; the grid at the time of the question is universally quantified |
| C189, C190 | `Refine`: the removal loop; the filling of a hole by its contract | points of the hole have unique barycentric coordinates in old and new elements; induction over the loop; C190 by a witness |
| C187, C188 | `Refine`: elements as vertex tuples of any dimension, positions in a vector space, requests and the insertion loop of `adapt()` | barycentric coordinates are unique in a conforming mesh and stay so after an insertion; volumes by multilinearity of the determinant; induction over the loop; C188 by witnesses |

## What is modelled and what is not

| code | module | not modelled |
|------|--------|--------------|
| grid/multiid.hh | `MultiId` | - |
| grid/indexsets.hh, leafiterator.hh (order of iteration) | `IdSet`, `IndexSet`, `RefElem` | wrap-around of ids after 2^64 vertices |
| grid/common.hh, entity.hh, geometry.hh, intersections.hh (numbering, corners, normals) | `RefElem`, `Normals`, `SubEntities` | the affine geometry of dune-geometry |
| grid/explicitgridfactory.hh, gmshgridfactory.hh | `Factory`, `Gmsh`, `Circulate` (with CGAL's 2D circulators, `is_edge` and `is_face`) | file input, physical names; circulation in 3D |
| grid/interfaceiterator.hh, interface/indexsets.hh, interface/intersections.hh, interface/intersectioniterator.hh, interface/leafiterator.hh | `InterfaceIter`, `InterfaceIndexSet`, `Normals` | - |
| grid/mmesh.hh: marks, requests, components, adapt, interface operations, movement | `Marks`, `Components`, `ConnComp`, `Adapt`, `InterfaceOps`, `NewFaces`, `Movement` | how CGAL chooses the new cells (arbitrary lists of cells) |
| grid/mmesh.hh: adapt, refineEdge, insertVertexInCell on the triangulation | `Refine` | CGAL's insertion and hole filling (documented effect), requests made by addToInterface |
| misc/twistutility.hh | `InterfaceGeo/Twist` | - |
| misc/partitionhelper.hh, communication.hh, objectstream.hh | `Ranks`, `Parallel`, `PartIter`, `ObjStream` | MPI itself (reliable ordered delivery) |
| misc/persistentcontainer.hh | `Container` | the base class of dune-grid (stated as assumption) |
| grid/polygoncutting.hh, cutsettriangulation.hh, cachingentity.hh: intersectionVolume | `Clip` | rounding |
| mmesh.hh: adapt(handle), interface/grid.hh: adapt(handle), geometryInFather | `Transfer` | handles other than the piecewise constant one (only their calls) |
| cgal/triangulationwrapper.hh: Plane, remeshHoleConstrained | `HoleRemesh` | CGAL's make_hole and fill_hole (the new faces are an input of the gluing) |
| grid/dgfparser.hh, boundary ids | `BoundaryIds`, `Dgf` | reading of the file (dune-grid) |
| grid/implicitgridfactory.hh, structuredgridfactory.hh | `Implicit` | the triangles chosen by CGAL (any) |
| interface/gridfactory.hh | `InterfaceFactory` | insertBoundarySegment, getGrid |
| grid/incidentiterator.hh, interface/incidentiterator.hh, interface/entity.hh: isTip | `Incident` | CGAL's circulators (their contract is a hypothesis) |
| grid/entity.hh, interface/entity.hh: equals, copy, seed, id, geometryInFather; entityseed.hh | `Entity` | Cholesky decomposition in `AffineGeometry::local` (Cramer's rule), dangling fathers, memory of deleted cells |
| dune/python/mmesh/jacobian_iterative.hh: scalar product, operator, solve | `ParSolve` | MPI, dune-fem communication (assumed), the solvers of dune-istl (any solver), rounding |
| dune/mmesh/grid/explicitgridfactory.hh: domain markers and insertion indices; interface/grid.hh: domainMarker; cgal/defaults.hh: info of cells | `Markers` | CGAL (contract on handles), python wrappers of markers, rounding |
| dune/mmesh/interface/geometry.hh: constructors; interface/intersections.hh: geometry, geometryInInside, geometryInOutside, indexInOutside | `InterfaceGeo` | rounding |
| dune/mmesh/remeshing/longestedgerefinement.hh: atBoundary, boundaryFlag | `BoundaryFlag` | rounding; circulators by contract |
| python: skeletontrace, normals, movement functions | `Trace` | code generation |
| dune/python/mmesh/jacobian.hh, distance gradients | `Jacobian`, `Gradient` | the assembly of the schemes themselves |
| remeshing/*.hh | `Distance`, `Indicator`, `LongestEdge` | rounding |
| interface/curvatureoperator.hh | `Curvature` | rounding |
| mmesh.hh isInterface under threads | `Threads` | weak memory (the model is sequentially consistent) |
| python/dune/mmesh/_solve.py, _move.py | `Solve`, `MoveMesh`, `Generated` | printing |
| mmesh.hh: whole histories of adaptations and movements | `Refine/Global`, `Conserve`, `Sides`, `MoveGeo`, `Refine/Terminate`, `Refine/Stuck` | rounding; how CGAL chooses the new cells |
| mmesh.hh: adapt on several processes | `AdaptParallel` | requests that are dropped because an element was changed before, coarsening, requests of the interface |
| remeshing/ratioindicator.hh, distance.hh on several processes | Indicator/Processes.lean | interface elements of a process are given as lists |
| grid/intersectioniterator.hh | `IntersectionIter` | default constructed iterators, comparison of iterators of different elements |
| mmesh.hh: addToInterface, movement, coupling on several processes | `AddParallel`, `MoveParallel` | MPI, rounding |
| python/dune/mmesh/_utility.py: edgeMovement, interfaceEdgeMovement with arrays | `Trace/Arrays` | pybind11 (buffer protocol by contract) |

<!-- generated by tools/gen_design.py, do not edit below -->

## Status of each property

Theorems whose name ends in `_false` prove, with a concrete state or for all states, that (part of) the
English claim does not hold of the code; `_partial` marks theorems that need an extra hypothesis. Names are
given without their namespace; the full names are in MANIFEST.json.

### C01 Entity ids: equality and order (proved)

Two ids compare equal exactly when they were built from the same sequence of vertex numbers; '<' on ids is a strict total order compatible with '==' and '<=' (irreflexive, asymmetric, transitive, and exactly one of a<b, a==b, b<a holds), so ids can be used as keys of ordered containers.

* modules: `MultiId`
* proved: `C01_construction_defined_iff`, `C01_vt_roundtrip`, `C01_eq_iff_same_numbers`, `C01_lt_iff_shortlex`, `C01_strict_total_order`

### C02 Entity ids: hash agrees with equality under caching (proved)

Equal ids return equal hash values, whatever copies, assignments and earlier hash() calls happened to either of them, so an id stored in an unordered container is always found again by an equal id.

* modules: `MultiId`
* proved: `C02_history_refines`, `C02_equal_ids_equal_hash`

### C03 Vertex ids are persistent, unique and never reused (proved)

During the whole life of a grid no two living vertices share an id, the id of a vertex never changes while it lives, and the id of a removed vertex is never given to another vertex, for any interleaving of vertex creation (with or without a factory-assigned number), removal and id updates.

* modules: `IdSet`
* proved: `C03_unique`, `C03_persistent`, `C03_never_reused`, `C03_all_have_ids`, `C03_set_at_once`

### C04 Sub-entity ids agree with entity ids (proved)

For every element and every local number i, the id reported for sub-entity i of the element equals the id of the sub-entity object obtained from the element, and it does not depend on the element through which the sub-entity is reached; two sub-entities of the same codimension have the same id exactly when they have the same vertices.

* modules: `RefElem`
* proved: `C04_element_id`, `C04_facet_id`, `C04_facet_id_eq_iff`, `C04_edge_id`, `C04_subId_facet_2d`, `C04_subId_vertex_2d`, `C04_subId_facet_3d`, `C04_subId_edge_3d`, `C04_subId_vertex_3d`

### C05 Bulk leaf indices are consecutive, zero-based and unique (proved)

After an index update, the indices of the leaf entities of each codimension are exactly 0,...,size(codim)-1 without repetition, and a facet (or edge) shared by several elements has one index.

* modules: `IndexSet`
* proved: `C05_elements`, `C05_vertices`, `C05_facets`, `C05_edges`

### C06 Sub-entity indices agree with entity indices (proved)

subIndex(element, i, codim) equals index of the i-th sub-entity of that codimension for every element and i.

* modules: `IndexSet`
* proved: `C06_facets`, `C06_vertices`, `C06_edges`

### C07 Facet numbering conversions are inverse to each other (proved)

Converting a DUNE facet number to the opposite-vertex number of the host triangulation and back yields the same number, in both directions, for every order of the vertex ids; the facet with number i has exactly the vertices the reference simplex assigns to facet i.

* modules: `RefElem`
* proved: `C07_cgalIndex_unique`, `C07_no_wraparound`, `C07_facet_conversions_inverse`, `C07_facet_same_vertices`

### C08 Edge numbering in 3D matches the reference tetrahedron (proved)

The DUNE number computed for an edge of a tetrahedron does not depend on the order in which its two end points are given, is different for different edges, and is the reference-element number of the edge joining those two vertices.

* modules: `RefElem`
* proved: `C08_edge_vertices`, `C08_edge_roundtrip`

### C09 Intersection geometries conform (proved)

For every intersection the physical point obtained by mapping a local coordinate with geometry() equals the point obtained through geometryInInside() followed by the geometry of the inside element, and through geometryInOutside() followed by that of the outside element; the interface entity lying on the intersection has the same parametrisation.

* modules: `RefElem`
* proved: `C09_conforming_2d`, `C09_conforming_3d`, `C09_facet_corners_agree`, `C09_interface_corners`, `C09_inside_outside_2d`, `C09_inside_outside_3d`

### C10 Outer normals of bulk intersections (proved)

For every positively oriented element, integrationOuterNormal of each intersection is perpendicular to the intersection, points away from the element, has the length of the intersection's integration element, and the integration outer normals of an element add up to zero; the normals seen from the two sides of an intersection are opposite.

* modules: `Normals`
* proved: `C10_normal_2d`, `C10_closed_2d`, `C10_opposite_2d`, `C10_normal_3d`, `C10_gram_symmetric`, `C10_closed_3d`, `C10_opposite_3d`, `C10_inward_if_negative`, `C10_unit`, `C10_unit_2d`

### C11 Outer normals of interface intersections in 3D (proved)

The outer normal of an edge of an interface triangle lies in the plane of the triangle, is perpendicular to the edge and points away from the triangle; unitOuterNormal has length one. On the interface of a 2D grid the outer normal is the unit vector along the segment, away from it.

* modules: `Normals`
* proved: `C11_direction`, `C11_unit`, `C11_segment`
* note: Over an ordered field (direction) and the reals (unit normal). The length of integrationOuterNormal is C100.

### C12 Number of sub-entities (proved)

subEntities(cc) of an element of the bulk grid, of an element kept during adaptation and of an interface element, and of bulk entities of any codimension, returns the number of sub-entities of codimension cc, i.e. the binomial count of a simplex.

* modules: `SubEntities`
* proved: `C12_bulk`, `C12_caching`, `C12_interface_element`
* note: Proved for all dimensions and codimensions the code has.

### C13 Explicit factory builds correct connectivity (proved)

For every list of elements in which each facet belongs to at most two elements, in whatever order they were inserted, the created grid has: two elements are neighbours through a facet exactly when both contain it, neighbourship is symmetric, and a facet contained in one element only is a boundary facet whose outer neighbour is one infinite element.

* modules: `Factory`
* proved: `C13_neighbours_2d`, `C13_boundary_2d`, `C13_neighbours_3d`, `C13_boundary_3d`, `C13_infinite_orientation_2d`, `C13_infinite_orientation_3d`

### C14 Explicit factory orients elements positively (proved)

In 2D every element of a created grid is positively oriented, whatever vertex order the caller used.

* modules: `Factory`
* proved: `C14_positive_2d`

### C15 Boundary segment indices (proved)

Inserting the same boundary segment twice is rejected; the inserted segments are numbered in the order of insertion, and in the created grid different boundary segments have different values of boundarySegmentIndex.

* modules: `Segments`
* proved: `C15_duplicate_rejected`, `C15_numbered`, `C15_distinct`

### C16 Interface and boundary segments are separated on creation (proved)

After createGrid no facet is both a boundary segment and an interface segment; a facet inserted as both is a boundary segment if it lies on the domain boundary and an interface segment otherwise, and the vertices of all interface segments (and only those) are interface vertices.

* modules: `Segments`
* proved: `C16_domain_2d`, `C16_domain_3d`, `C16_characterisation`, `C16_separated`, `C16_vertices`, `C16_marker`

### C17 Interface boundary segment insertion rejects duplicates (partial)

insertInterfaceBoundarySegment rejects a segment that was inserted before, like insertBoundarySegment does, and numbers the accepted segments consecutively.

* modules: `Segments`
* proved: `C17_never_rejected`, `C17_numbered_partial`
* refuted: `C17_duplicate_false`
* note: False as stated: duplicates are never rejected (C17_never_rejected) and shift the numbering (C17_duplicate_false). Consecutive without duplicates (C17_numbered_partial).

### C18 Gmsh reader: element lines (proved)

For every element line of a well-formed msh file the reader hands to the factory exactly the corner vertices named on the line (shifted to zero-based numbers) with the last tag as domain marker, and the whole file gives exactly the expected calls. If the nodes are numbered 1, 2, ... in the order of their lines, a corner is at the position given for its number. Conversely, a file that is read without an exception has a section of nodes and one of elements, each with an end mark and starting with the number of its lines; the first calls insert one vertex per node line at the position given there, and every word of an element line is a number.

* modules: `Gmsh`
* proved: `C18_line`, `C18_file`, `C18_corner`, `C18_accepted`
* note: Files as lists of tokenised lines.

### C19 Iteration over interface elements visits each once (proved)

In a grid created by the factory, iterating over the elements of the interface grid visits each interface segment inside the domain exactly once, whichever of the two adjacent bulk elements is stored first; nothing but interface segments is visited. In any grid the number of visits is determined by the insertion numbers of the adjacent elements.

* modules: `InterfaceIter`
* proved: `C19_interior`, `C19_boundary`, `C19_only_segments`, `C19_fresh`
* note: Exact number of visits in C19_interior, C19_boundary for all grids; C19_fresh for all meshes, orders and contents of infinite elements.

### C20 Iteration over interface vertices visits each once (proved)

interfaceVertices(gridView) visits every vertex of every interface segment exactly once and no other vertex.

* modules: `InterfaceIter`
* proved: `C20_vertices`

### C21 Interface intersections enumerate all neighbours (proved)

Iterating over the intersections of an interface element yields, for each of its facets, one intersection per other interface element containing that facet (also at junctions with any number of branches), each with a different outside element, and exactly one boundary intersection for a facet contained in no other interface element.

* modules: `InterfaceIndexSet`
* proved: `C21_neighbours`, `C21_unique`, `C21_ghost`

### C22 Interface leaf indices are consecutive, zero-based and unique (proved)

After an index update over pairwise different interface elements their indices and those of edges (3D) and vertices are exactly 0,...,size-1 without repetition, independent of the order in which vertices are stored.

* modules: `InterfaceIndexSet`
* proved: `C22_elements`, `C22_vertices`, `C22_edges`

### C23 Marks: the last mark of an element counts (proved)

For the bulk grid, after mark(r, e), getMark(e) returns r until the next mark of e or postAdapt, and getMark of other elements is unchanged; on a grid without interface marks markElements marks each element as the indicator says and tells if any mark was set.

* modules: `Marks`
* proved: `C23_bulk`, `C23_markElements`

### C24 Conflict components: overlapping zones share one component (proved)

When adapt groups the requested insertions and removals into components, the marking terminates; if the elements of the conflict zones carry no number from before, two requests carry the same component number exactly when they are linked by a chain of requests with overlapping conflict zones. After postAdapt no leaf element carries a number.

* modules: `Components`
* proved: `C24_terminates`, `C24_linked`, `C24_cycles`

### C25 Connected component contains exactly the connected old elements (proved)

A connected component built from an element contains that element and exactly those elements that can be reached from it by facet neighbours that are old and carry the same component number, each exactly once; building it terminates.

* modules: `ConnComp`
* proved: `C25_component`, `C25_update`

### C26 Refining an interface segment (proved)

Splitting an interface segment replaces it by the two segments joining its end points with the new vertex, both with the old domain marker, makes the new vertex an interface vertex, and leaves all other segments and markers unchanged.

* modules: `InterfaceOps`
* proved: `C26_refinement`, `C26_split`, `C26_undefined_3d`
* note: 2D, for every history of calls (C26_refinement) and for every state in which the new id is unused (C26_split). In 3D insertInInterface_ reads past the end of the id vector for every edge (C26_undefined_3d).

### C27 Removing an interface vertex (proved)

Removing an interface vertex with exactly two incident segments replaces these by the segment joining the two other end points, keeping the interface connected and everything else of the interface unchanged, provided no element at the vertex was created by an earlier request of the same call of adapt().

* modules: `InterfaceOps`
* proved: `C27_request`, `C27_join`, `C27_connected`
* note: 2D; in 3D the code throws. C27_request for states reached by careful histories (as in C111_facets_partial), in which segments are facets; the host grid enters by its contract.

### C28 Return value of adapt() (proved)

adapt() returns true exactly if a request to insert a vertex did not end with an error message, and the triangulation was changed exactly if a request inserted a vertex or removed one. In particular, if every request to insert succeeds and vertices are not only removed, adapt() returns true exactly if the triangulation was changed.

* modules: `Adapt`
* proved: `C28_result`, `C28_changed`, `C28_result_changed`
* note: Requests end with an outcome (vertex inserted, edge gone, extension given up); the stronger claim is C180.

### C29 Requests are processed at most once and cleared (proved)

However often an edge is requested or marked, it is queued at most once (unless a crossing was found for it), no edge is split twice in one adapt(), a vertex is queued for removal at most once; every request and mark is queued.

* modules: `Adapt`
* proved: `C29_once`, `C29_requested`, `C29_marked`, `C29_interface_marked`, `C29_interface_mark_set`, `C29_split_once`

### C30 Interface segments stay facets with interface vertices (proved)

At every time each interface segment has pairwise distinct vertices which are all flagged as interface vertices, whatever sequence of addInterface, segment refinement, vertex insertion, vertex removal, extension and interface crossing was executed.

* modules: `InterfaceOps`
* proved: `C30_vertices`
* note: 2D, explicit factory. The host grid enters by contracts for insertion and removal.

### C31 ensureInterfaceMovement does not move the mesh (proved)

After ensureInterfaceMovement(shifts) has returned, every vertex is at the position it had before the call; if a cell is not positive before the call, the call throws and nothing is changed.

* modules: `Movement`
* proved: `C31_returned`, `C31_invalid_before`, `C31_unchanged`
* note: Exact arithmetic (an ordered field); exceptions and rounding are C112.

### C32 ensureVertexMovement returning false means the movement is safe (proved)

In 2D ensureVertexMovement(shifts) returns with positions unchanged; it returns false exactly if every vertex of a cell that would get a non-positive volume is on the interface, a corner, or was queued before, and it queues exactly the other ones. In 3D it throws exactly if some cell would get a non-positive volume.

* modules: `Movement`
* proved: `C32_result`, `C32_3d`

### C33 Moving vertices (proved)

moveVertices(shifts) (moveInterface(shifts)) translates each (interface) vertex by exactly the shift stored at its index, exactly once, and leaves every other vertex, all ids, indices and the connectivity unchanged.

* modules: `Movement`
* proved: `C33_vertices`, `C33_interface`, `C33_short`

### C34 Parallel: elements are distributed to ranks contiguously and completely (proved)

With P processes and N elements each element is interior on exactly one process, the elements of a process are contiguous in iteration order, and iteration over interior elements visits exactly these, in 2D and in 3D. In 2D moreover loads differ by at most one, and every process gets at least one element if N>=P.

* modules: `Ranks`
* proved: `C34_owner`, `C34_contiguous`, `C34_balanced`, `C34_nonempty`, `C34_iteration`, `C34_serial`
* note: For all numbers of processes and elements whose product fits std::size_t; also for iteration over interior elements with fewer elements than processes. With one process everything is interior (C34_serial). Even distribution only in 2D; the claim for 3D is C158.

### C35 Parallel: ghost layer (proved)

On each process an element is ghost exactly when it is not interior there and shares a facet with an interior element or is adjacent to an interface element that meets an interior interface element; the same for interface elements. All processes agree on the links, i.e. p lists q as neighbour exactly when q lists p.

* modules: `Parallel`
* proved: `C35_interior`, `C35_interface_ghost`, `C35_interface_interior`, `C35_ghost`, `C35_links`, `C35_links_proper`, `C35_facets`, `C35_vertices`
* note: The clearing of maps runs over an array of maps; it is assumed to clear only maps (see C114_clear_false).

### C36 Parallel: bulk communication delivers data to the right entity (proved)

In a communication of the bulk grid, in every schedule, what a process receives from a neighbour is exactly what that neighbour gathered for the same elements, in the same order, completely read, with matching sizes; no process waits for ever.

* modules: `Parallel`
* proved: `C36_exchange`, `C36_schedule`, `C36_progress`, `C36_packed`, `C36_unpacked`, `C36_forward`, `C36_backward`, `C36_all`, `C36_linked`
* note: MPI order of messages is assumed.

### C37 Parallel: interface communication delivers data to the right entity (proved)

Where at most two processes own interface elements at each interface vertex, data gathered for an interface element on its owner reaches exactly that element on the processes where it is a ghost, from its owner only, in every round and under every schedule of the messages.

* modules: `Parallel`
* proved: `C37_exchange`, `C37_packed`, `C37_unpacked`, `C37_same`, `C37_forward`, `C37_backward`, `C37_all`, `C37_complete`
* note: All meshes with at most two processes at each interface vertex, all schedules (C37_exchange). Junctions of three processes are C154.

### C38 Object stream is first-in first-out (proved)

For every sequence of writes and reads of values that keep each other aligned, with arbitrary sizes, an object stream returns the values in the order and with the contents they were written, earlier contents survive buffer growth, and with assertions enabled reading more than was written is detected.

* modules: `ObjStream`
* proved: `C38_queue`, `C38_round_trip`, `C38_end_debug`, `C38_unchecked`

### C39 Object stream buffers have one owner (proved)

In every sequence of construction, copy, assignment, write, read and destruction in which no stream is used after it was copied from, no buffer is freed twice or used after it was freed, every buffer has one owner, and all are freed when all streams are gone.

* modules: `ObjStream`
* proved: `C39_owner`
* note: All such sequences, with and without assertions (C39_owner).

### C40 Polygon clipping stays inside (proved)

Clipping a polygon against a convex counter-clockwise clip polygon yields only points inside the clip polygon (up to the tolerance) and inside the convex hull of the input, and returns the subject unchanged if it already lies inside.

* modules: `Clip`
* proved: `C40_inside`, `C40_kept`, `C40_exact`, `C40_intersection`, `C40_triangles`, `C40_unchanged`, `C40_convex`
* note: For all polygons: result inside the hull of the subject and left of all clip edges up to the tolerance (C40_inside); convex subjects lose nothing (C40_kept); without tolerance the result is exactly the intersection (C40_exact, C40_intersection, C40_triangles); subjects inside are returned up to rotation of the list (C40_unchanged). Exact arithmetic over any ordered field.

### C41 Polygon area (proved)

polygonArea is the signed area: invariant under rotation of the vertex list and translation, negated by reversal, additive under cutting along a chord, and for convex polygons over the reals the Lebesgue measure of the hull. The volumes of the triangles of a cut set add up to the measure of the intersection, up to the tolerances of the clipping.

* modules: `Clip`
* proved: `C41_triangle`, `C41_rotate`, `C41_reverse`, `C41_translate`, `C41_chord`, `C41_fan`, `C41_fan_volume`, `C41_cut`, `C41_monotone`, `C41_cutset_bounds`, `C41_measure`, `C41_cutset_measure`, `C41_cutset_tolerance`
* note: C41_cutset_measure: exactly, without tolerances; C41_cutset_tolerance, C41_cutset_bounds: with the tolerances of the code.

### C42 Line intersection point (proved)

lineIntersectionPoint returns a point lying on both lines whenever the lines are not parallel.

* modules: `Clip`
* proved: `C42_on_both`, `C42_unique`, `C42_no_division_by_zero`
* note: Exact arithmetic over any ordered field; also uniqueness, and the clipping loop never divides by zero.

### C43 Distance function in 2D (proved)

In 2D the distance computed for a point and an interface segment is the Euclidean distance to the segment; the value stored for an interior vertex is the minimum over the interface segments of the process, non-negative, and zero exactly on the interface; the value of an element is the average of those of its vertices.

* modules: `Distance`
* proved: `C43_segment`, `C43_minimum`, `C43_zero`, `C43_maximum`, `C43_element`
* note: Over the reals; 1e100 if there are no interface segments.

### C44 Ratio indicator decision (proved)

In 2D the indicator returns -1 exactly if an edge is shorter than the permitted minimum, one edge is more than 4 times as long as another, or the radius of the circumcircle is more than 60 times the one of the incircle; otherwise 1 exactly if an edge is longer than the permitted maximum, otherwise 0. In 3D it never returns -1. The permitted lengths are interpolated linearly between the interface and the given distance. For triangles the decision does not depend on the unit of length.

* modules: `Indicator`
* proved: `C44_coarsen`, `C44_refine`, `C44_3d`, `C44_limits`, `C44_construct`, `C44_init`, `C44_segment`, `C44_init_stable`, `C44_unit`

### C45 Longest edge refinement (proved)

The refinement strategy chooses an edge of maximal length of the element and its midpoint; the point does not depend on the element's vertex storage order up to ties.

* modules: `LongestEdge`
* proved: `C45_longest`, `C45_order`
* refuted: `C45_ties_false`
* note: A longest edge and its center for segments, triangles and tetrahedra; independent of the storage order if the longest edge is unique; C45_ties_false shows that with ties the point does depend on the order (the statement allows this). Lengths are elements of an ordered field.

### C46 Coarsening chooses by a well-defined order (partial)

The comparison used to rank the vertices of an element for coarsening is a strict weak ordering, so the choice is well-defined.

* modules: `LongestEdge`
* proved: `C46_conflict`, `C46_partial`
* refuted: `C46_false`, `C46_tolerance_false`
* note: False: C46_false (two vertices before each other), C46_tolerance_false (incomparability not transitive for equal levels); C46_conflict gives the exact condition. Holds for equal levels and constraints and sums that are equal or differ by more than 1e-14 (C46_partial).

### C47 Curvature fit is exact on spheres (proved)

The curvature operator takes for each vertex of the interface its position and those of its neighbours, and for each element of an interface without boundary the corners of its neighbour elements, each once. If these points lie on a circle (2D) or sphere (3D) and the determinant of their normal equations exceeds the machine epsilon, the computed curvature and center are exactly those of that circle or sphere, whatever was computed before; points on a line or plane give curvature zero. For three points in the plane the threshold means that twice the area of their triangle exceeds 2^-26.

* modules: `Curvature`
* proved: `C47_exact`, `C47_flat`, `C47_determined`, `C47_three_points`, `C47_operator`, `C47_element`
* note: Exact in every dimension and for every number of points: if the points lie on a sphere and the determinant exceeds 2^-52, centre and radius are those of the sphere (C47_exact, C47_determined, C47_operator for vertices, C47_element for elements of a closed interface); points in a plane give an infinite radius (C47_flat). What fails is C147. Rounding is not modelled.

### C48 Persistent container keeps data (proved)

Entries of a persistent container keep their values whatever happens to the grid, unless they are written; resizing twice without a grid change does nothing; if each change of the grid is followed by an increment of the sequence number, as in adapt(handle), every entity of the grid has an entry after resize.

* modules: `Container`
* proved: `C48_covered`, `C48_kept`, `C48_write`, `C48_twice`, `C48_resize`
* note: The base class of dune-grid is not in the repository; its behaviour is an assumption of the model.

### C49 Interface queries from several threads that do not overlap (proved)

isInterface may be called from several threads one after the other, in any order: each call returns the right answer. For a facet with a vertex that is not on the interface the answer is right in every interleaving.

* modules: `Threads`
* proved: `C49_serial`, `C49_off_interface`
* note: Sequentially consistent memory. Calls that overlap are C181.

### C50 Boundary interface iteration option (partial)

interfaceElements(gridView, true) visits in addition the interface segments on the domain boundary.

* modules: `InterfaceIter`
* proved: `C50_interior`, `C50_all_partial`
* refuted: `C50_ignored_false`, `C50_not_visited_false`
* note: False: the option is ignored (C50_ignored_false, C50_not_visited_false). Without boundary interface segments all are visited (C50_all_partial).

### C51 Interface boundary segment indices (proved)

If every interface element has at most one boundary facet, the boundary intersections of the interface grid have the boundary segment indices 0,...,numBoundarySegments()-1, each once.

* modules: `InterfaceIndexSet`
* proved: `C51_numbered`
* note: 2D and 3D, all interfaces.

### C52 Iterative coupled solve reports convergence truthfully (proved)

iterativeSolve makes between one and the allowed number of passes, stops after the first one that changes the iterate by less than the tolerance, and returns converged=True exactly if the last pass did; started at a fixed point it reports convergence.

* modules: `Solve`
* proved: `C52_converged`, `C52_fixpoint`

### C53 moveMesh performs a bounded, checked movement (proved)

moveMesh performs at most ten ensure steps and ten mark steps, adapts the given functions once for each, and moves the interface once, with the shifts that getShifts returned last, directly after twice these shifts were passed to ensureInterfaceMovement; if fewer than ten steps are reported this check returned False. If fewer than ten mark steps are reported no element is left marked.

* modules: `MoveMesh`
* proved: `C53_bounds`, `C53_checked`, `C53_marked`, `C53_twice`

### C54 Interface queries agree (proved)

For grids of the explicit factory, after every history of interface operations, isInterface(intersection), isInterface(codim-1 entity) and the interface grid's isInterface of the same facet give the same answer, and it is true exactly for the interface segments.

* modules: `InterfaceOps`
* proved: `C54_agree`, `C54_added`
* note: After any sequence of addInterface in any dimension (C54_added), after any history in 2D (C54_agree).

### C55 Interface element does not depend on the side (proved)

Converting a facet into an interface element gives an interface element with exactly the vertices of the facet; from both adjacent bulk elements it gives the same interface element if these have different insertion numbers, as any two elements of a created grid have.

* modules: `InterfaceIter`
* proved: `C55_same`, `C55_created`, `C55_facet`
* note: C55_created for grids made by the factory, C55_same for any grid with different insertion numbers, C55_facet in every case.

### C56 preAdapt false means nothing can vanish (proved)

If preAdapt of the bulk grid returns false, then no bulk element is marked for coarsening, no vertex is queued for removal and no interface element is marked. It returns true exactly if an interface element has been given a mark other than zero since the last postAdapt of the interface grid, or an element has been marked for coarsening or a vertex given to removeVertex since the last postAdapt.

* modules: `Marks`
* proved: `C56_false_means_nothing_vanishes`, `C56_exactly`, `C56_after_postAdapt`
* refuted: `C56_documented_false`
* note: The comment in the header says the opposite of what the function does; C56_documented_false shows that the documented answer is not the one returned.

### C57 Every request gets a complete component (proved)

When adapt is called with pending requests whose conflict zones are connected by facets, building the components is defined exactly if no component comes too late in the order of iteration; then the component of each request contains exactly the old elements in the conflict zones of the requests linked with it, each once, and a new element of the request has this component. If all requests are linked this is the case in whatever order they were made.

* modules: `ConnComp`
* proved: `C57_in_order`, `C57_exact`, `C57_linked`, `C57_query`
* note: C57_exact is the exact condition, also for requests at boundary edges, whose zones contain infinite cells; C57_linked the case of linked requests, C57_query the query in release builds; C57_in_order needs no connected zones. Orders in which a component comes too late are C182, debug builds C185, infinite cells with old marks C108.

### C58 New elements are assigned the component of the request that created them (proved)

After adapt(), if no extension of the interface was given up, each new element around a vertex that was inserted for a request is registered with the connected component that was built for that request and with no other, whichever requests were dropped because their edge is gone.

* modules: `Adapt`
* proved: `C58_component`
* note: All lists of requests in which no extension is given up.

### C59 A refinement request of the interface splits the edge it was made for or nothing (proved)

In a cycle that is closed by postAdapt, when adapt() carries out requests to refine interface edges, the edge that is split by a request is the one for which the request was made; a request whose edge is gone is dropped.

* modules: `Adapt`
* proved: `C59_own_edge`, `C59_interface`
* note: Which edge a stored handle designates after a split is left open (CGAL): the theorems hold for all choices. Bulk requests and a second adapt() without postAdapt() are C183.

### C60 ensureInterfaceMovement false means the interface can be moved (proved)

If no vertex is queued for removal and no crossing is discarded because its point is not on the interface edge, and ensureInterfaceMovement(shifts) returns false, then every cell has positive volume after moveInterface(shifts).

* modules: `Movement`
* proved: `C60_positive`
* note: Shifts, positions and volumes in an ordered field. The other situations are C184.

### C61 Movement checks never queue corners, tips or junctions for removal (proved)

A vertex that ensureInterfaceMovement or ensureVertexMovement queues for removal is a vertex off the interface whose stored boundary flag is 0, or an interface vertex with exactly two interface elements, so that tips and junctions are never queued; nothing is taken from the queue, however the call ends.

* modules: `Movement`
* proved: `C61_interface`, `C61_vertex`
* note: All grids, shifts and states. That the stored flag may be the one for the moved positions is C151.

### C62 An element that survives an adaptation stays on its process (partial)

An element that is not changed by adapt() has the same owner process before and after; otherwise its data would have to be sent.

* modules: `Ranks`
* proved: `C62_kept_partial`
* refuted: `C62_migrates_false`
* note: False: ranks are computed anew from positions (C62_migrates_false); true only while number and order of the elements do not change (C62_kept_partial).

### C63 Halving the longest edge produces no short edges (proved)

If the indicator asks to refine a triangle, two of its edges are longer than the permitted maximum and its longest edge is halved, all edges of the two new triangles have at least the permitted minimal length, as the comment in the constructor claims, so refinement does not cause coarsening.

* modules: `Indicator`
* proved: `C63_halved`, `C63_ratio`
* note: It depends on the radius ratio 30.

### C64 Coarsening removes the latest vertices and keeps corners, tips and junctions (proved)

The vertex that is removed because an interface element is marked for coarsening is a vertex of this element that is neither a tip nor a junction; none is removed only if there is no such vertex.

* modules: `LongestEdge`
* proved: `C64_interface`

### C65 Intermediate and vanished elements have data during an adaptation (proved)

During the callbacks of an adaptation a data container that was resized offers entries for the elements that vanished, with their old values, and for every sub-entity of the intermediate elements passed to the callbacks; the latter are told apart from each other and from the entities of the grid.

* modules: `Container`
* proved: `C65_vanished`, `C65_middle`, `C65_middle_interface`, `C65_distinct`, `C65_separate`
* note: Three-dimensional grids do not create intermediate elements.

### C66 New entities get the value passed to resize (proved)

After a resize of a data container an entity that was never in the grid before has the value passed to resize, and the container holds entries only for entities that were in the grid at its construction or a resize, and for intermediate elements.

* modules: `Container`
* proved: `C66_entries`, `C66_new`

### C67 Acceleration of the iterative solve is exact for uniform contraction (proved)

With accelerate=True, if both schemes reduce the error of their target by a constant factor different from one, the targets are the solution after one pass; a solution is never left.

* modules: `Solve`
* proved: `C67_exact`, `C67_fixpoint`, `C67_least_squares`, `C67_pass`

### C68 Monolithic solve reports convergence truthfully (proved)

monolithicSolve returns True exactly when one of the at most iter Newton steps and the residual of both schemes after it are below the tolerances; then the targets are those after the first such step and their residual, evaluated after the callback, is below f_tol. Linear problems are solved in one step.

* modules: `Solve`
* proved: `C68_converged`, `C68_callback`, `C68_affine`
* refuted: `C68_initial_false`
* note: The Jacobian class (C++ generated at run time) is an arbitrary function. C68_initial_false: the initial residual is never looked at.

### C69 The callback is called before every solve (proved)

iterativeSolve calls the callback first, then in each pass the bulk scheme, the interface scheme and the callback (twice with acceleration), so that the callback is called before each bulk solve and once more before it returns.

* modules: `Solve`
* proved: `C69_calls`, `C69_last`

### C70 A skeleton function has the value of the interface function (proved)

When a skeleton function is bound to an intersection that is part of the interface, from the inside or from the outside, its value (and derivatives) at a point of the intersection, given in local coordinates of the element on that side, is the value of the interface function at the same physical point, whatever the function was bound to before. The values from the two sides agree.

* modules: `Trace`
* proved: `C70_skeleton_2d`, `C70_skeleton_3d`, `C70_sides_2d`
* note: Over an ordered field, with AffineGeometry's pseudo inverse; the triangulation is only assumed to mirror facets and to have distinct ids (Grid.Valid, shown for a concrete grid).

### C71 Skeleton functions and the indicator vanish off the interface (proved)

The interface indicator is one on the intersections of the interface and zero on all others, and a skeleton function is zero on all other intersections, whatever it was bound to before.

* modules: `Trace`
* proved: `C71_zero`, `C71_one`, `C71_history`

### C72 The traces are the values in the adjacent elements (proved)

The traces of a bulk function at a point of an interface element are the values of the function in the two adjacent elements at the same physical point, one for + and the other for -. Where the interface element lies on the domain boundary the + trace is the value in the only adjacent element and the - trace raises an exception.

* modules: `Trace`
* proved: `C72_boundary`, `C72_trace_2d`, `C72_trace_3d`
* note: For host facets of elements as built by the constructor of interface elements, including those on infinite cells.

### C73 The + side of an interface element is unique and the normal points from + to - (proved)

The normal of an interface element points from the element of the + trace to the element of the - trace; if the two elements have different insertion numbers, which of them is the + side does not depend on how the interface element was obtained.

* modules: `Trace`
* proved: `C73_side`, `C73_normal_2d`, `C73_normal_3d`
* note: C73_side; C73_normal_2d and C73_normal_3d for positively oriented elements, before normalisation. That dune-fem's '+' is the same side is not modelled.

### C74 The movement functions agree on the interface (proved)

edgeMovement moves each interface vertex by the shift given for it and no other vertex, is continuous across facets, and on the interface agrees with interfaceEdgeMovement for the same shifts.

* modules: `Trace`
* proved: `C74_vertices`, `C74_interface_2d`, `C74_interface_3d`, `C74_continuous_2d`, `C74_continuous_3d`, `C74_defined`
* note: For the C++ functions before the interpolation into the Lagrange space; C74_defined: there must be a shift for every interface vertex, otherwise the access is out of range (none).

### C75 The gradient of the distance function is its gradient (proved)

On every element the distance function of a grid takes the distances of the vertices, is affine in between, and its gradient is the gradient with respect to the global coordinates.

* modules: `Gradient`
* proved: `C75_values`, `C75_gradient`, `C75_reference_partial`
* refuted: `C75_reference_false`
* note: Proved for the class Distance, which is what distance(grid) gives the user. The older class DistanceFunction in utility.hh (not registered by the shipped modules) returns the gradient in reference coordinates: C75_reference_false, right only on translated reference elements.

### C76 The coupling block of the bulk residual is its derivative by the interface unknowns (proved)

For interfaces with bulk elements on both sides, the block of the monolithic Jacobian that couples the bulk equations to the interface unknowns holds the central difference quotients of the bulk residual with respect to each interface degree of freedom; it is the exact derivative if the residual is quadratic in the interface unknowns.

* modules: `Jacobian`
* proved: `C76_assembleB`, `C76_exact`
* note: The residual is any function of the degrees of freedom that only sees local ones.

### C77 The coupling block of the interface residual is its derivative by the bulk unknowns (proved)

If no degree of freedom of the bulk space is shared by two elements (discontinuous spaces), the block of the monolithic Jacobian that couples the interface equations to the bulk unknowns holds the central difference quotients of the interface residual with respect to each bulk degree of freedom.

* modules: `Jacobian`
* proved: `C77_assembleC`, `C77_discontinuous`
* note: C77_assembleC gives the block for every space.

### C78 Assembling the coupling blocks leaves the solution unchanged (proved)

After the monolithic Jacobian is updated the bulk and interface solutions have the same values as before, and each evaluation in the monolithic Newton method sees the data the callback computed from the current values.

* modules: `Jacobian`
* proved: `C78_restored`, `C78_fresh`

### C79 The monolithic Jacobian solves the coupled linear system (proved)

Given right hand sides for bulk and interface, solve returns bulk and interface corrections that satisfy both coupled linear equations with the current four blocks, for a first solve and for any sequence of solves with the same sparsity pattern.

* modules: `Jacobian`
* proved: `C79_solve`, `C79_again`
* note: The linear solver (UMFPACK) is any function that solves the system it is given.

### C80 Intersection volume is the measure of the intersection (proved)

intersectionVolume of an old element with a current element returns the area of the set of points that lie in both, up to the tolerance of the clipping; without the tolerance, over old elements that cover an element without overlapping the values add up to its area.

* modules: `Clip`
* proved: `C80_measure`, `C80_tolerance`, `C80_partition`

### C81 Calls of the data handle during bulk adaptation (proved)

adapt(handle) calls the handle for new elements only; for each part of a new element it first prolongs from the old element to the part and directly afterwards restricts from the part to the new element, with the right father bound in each call; initialize is true in exactly the first restriction to each new element.

* modules: `Transfer`
* proved: `C81_calls`, `C81_any_handle`, `C81_pairs`, `C81_initialize`
* note: Closed form of all calls, for every handle, every cut and every list of leaves. preAdapt, adapt and postAdapt are modelled in other modules.

### C82 Transfer of piecewise constant data is conservative (proved)

With the default piecewise constant restriction and prolongation the value of a new element after adapt(handle) is the average of the old values over it; the integral does not change, no new extrema appear, constants stay constant, and no other value is touched (without the thresholds for small intersections).

* modules: `Transfer`
* proved: `C82_unchanged`, `C82_value`, `C82_average`, `C82_conservation`, `C82_bounds`
* note: For all triangulations of the same region; the handle is a model of dune-fem's constant one.

### C83 Transfer of piecewise constant data on the interface (proved)

During adapt(handle) of the interface grid a part of a refined segment gets the value of the old segment; a segment that replaces two others that are not longer than it and whose common corner projects into it gets their average weighted by the projected lengths, so constants stay constant; no other value is touched.

* modules: `Transfer`
* proved: `C83_calls`, `C83_any_handle`, `C83_unchanged`, `C83_split`, `C83_join`, `C83_join_straight`

### C84 Removing an interface vertex keeps the interface in the mesh (proved)

When an interface vertex with two neighbours on the interface is removed in 2d, and the other neighbours between the two lie on the proper sides of the new segment with at least one on each side, the star is cut along the new segment into the part right of it and the part left of it, each part is meshed separately, and the two new elements at the segment become mutual neighbours, so that the new interface segment is an edge of the mesh.

* modules: `HoleRemesh`
* proved: `C84_split`, `C84_sides`, `C84_glue`, `C84_glue_throws`
* note: Triangulation of each part is CGAL's.

### C85 Boundary ids of a DGF file arrive at the intersections (proved)

After reading a DGF file on one process, `boundaryId` of the intersection with the vertices of a listed face, in any order, is the id given in the file; a face listed twice is rejected.

* modules: `BoundaryIds`
* proved: `C85_dgf`, `C85_duplicate`, `C85_unlisted`
* note: C85_unlisted: facets that are not listed get the id of the first face.

### C86 The implicit factory keeps vertices and their numbers (proved)

The grid made from a cloud of points has exactly the given points as vertices, each once; `insertionIndex` of a vertex is the number of the last insertion at its position, hence the number of its insertion if the points are different.

* modules: `Implicit`
* proved: `C86_vertices`, `C86_last`, `C86_index`

### C87 A structured grid has the vertices of the lattice (proved)

`createStructuredGrid` gives a grid whose vertices are exactly the lattice points of the box with the given number of elements in each direction, each once; their insertion indices are the lexicographic numbers; both corners of the box are vertices.

* modules: `Implicit`
* proved: `C87_vertices`, `C87_numbering`, `C87_corners`
* note: int overflow of the number of vertices and rounding are not modelled.

### C88 The factory of the interface grid makes exactly the inserted elements interface elements (proved)

After vertices and elements of the mesh were given to the factory of the interface grid, a facet of the mesh is an interface element exactly if it was one before or was inserted; `insertionIndex` of an interface element is the number of the first `insertElement` call that named it.

* modules: `InterfaceFactory`
* proved: `C88_interface`, `C88_index`
* note: insertBoundarySegment and getGrid are not modelled.

### C89 Incident elements, facets and vertices of the mesh (proved)

`incidentElements`, `incidentFacets` and `incidentVertices` visit exactly the elements, facets and vertices of the grid that touch the given vertex (or edge in 3d), each once; the infinite vertex is visited only if asked for; the loop ends and never reads outside of its container.

* modules: `Incident`
* proved: `C89_elements`, `C89_elements_3d`, `C89_facets`, `C89_facets_3d`, `C89_vertices`
* note: CGAL's contract (the circulator runs through the incident cells, facets, vertices, each once) is a hypothesis; such circulators exist for every triangulation (exists_runsCells, exists_runsFacets, exists_runsVertices).

### C90 Incident elements and vertices of the interface, tips (proved)

`incidentInterfaceElements` visits exactly the interface elements that contain the given vertex or edge, each once; `isTip` holds exactly for vertices inside the domain that belong to exactly one interface element (in 2D).

* modules: `Incident`
* proved: `C90_elements`, `C90_tip`
* note: In 3D isTip is always false.

### C91 Edges and elements at the interface (proved)

In 3d `isInterface(edge)` holds exactly for the edges of interface elements; `isOnInterface(element)` holds exactly if a facet of the element is an interface element.

* modules: `Incident`
* proved: `C91_edge`, `C91_element`
* note: For grids whose segments have flagged vertices.

### C92 Comparison of entities (proved)

Two entity objects of the leaf grid of the same codimension compare equal if and only if they are the same entity of the mesh, i.e. have the same vertices (and the same id), however they were obtained: edges and facets from either adjacent element, edges in 3D from any tetrahedron.

* modules: `Entity`
* proved: `C92_edges_2d`, `C92_facets_3d`, `C92_edges_3d`, `C92_elements`, `C92_ids_2d`, `C92_ids_3d`

### C93 Copies and seeds of entities (proved)

A copy of a leaf element and the element made from its seed are equal to the original and have the same id and geometry; the same for seeds of interface elements and facets; a default constructed seed is not valid.

* modules: `Entity`
* proved: `C93_seed`, `C93_facet_seed`, `C93_interface_seed`, `C93_invalid`, `C93_copy`

### C94 Geometry in the father (proved)

For an element of a 2D grid with a bound father, mapping a point by geometryInFather() and then by the geometry of the father gives the same point as the element's own geometry; its corners lie in the reference element if the element lies in the father, and its area is the ratio of the areas.

* modules: `Entity`
* proved: `C94_geometry`, `C94_rebind`, `C94_area`, `C94_inside`
* note: 3D throws.

### C95 Scalar product, norm and operator on several processes (proved)

With the iterative solver of the coupled problem on several processes, the scalar product and the norm count every degree of freedom exactly once, and applying the operator gives every process its part of the product of the global matrix with the global vector, provided the owner of a degree of freedom has its complete row.

* modules: `ParSolve`
* proved: `C95_dot`, `C95_dot_owners`, `C95_norm`, `C95_apply`, `C95_applyscaleadd`
* note: C95_dot (and C95_dot_owners: only the values on the owners matter), C95_norm, C95_apply, C95_applyscaleadd. Assumed of dune-fem: scalarProductDofs sums owned dofs over all processes, communicate copies from the owner; assumed of the assembly: complete rows on the owner (C96_incomplete_false shows that this is needed). Rounding is not modelled.

### C96 Parallel solve equals serial solve (proved)

The iterative solve of the coupled problem on several processes never blocks because processes disagree on the next step, ends exactly if the solve on one process ends, and gives every process its part of the solution computed on one process, for any iterative method that uses only the scalar product, the norm, the operator and linear combinations, provided the owner of a degree of freedom has its complete row.

* modules: `ParSolve`
* proved: `C96_lockstep`, `C96_solve`, `C96_rhs`
* refuted: `C96_incomplete_false`
* note: C96_lockstep (every number of steps), C96_solve, C96_rhs (right hand side only right on the owners, for methods that begin with the defect). C96_incomplete_false: without complete rows on the owner the operator is not the global one, so the proviso is needed.

### C97 A solve that does not converge is reported (partial)

If the iterative solve of the coupled problem returns, the functions it returns solve the linear system (up to the tolerance), or the caller is told.

* modules: `ParSolve`
* proved: `C97_solution_partial`
* refuted: `C97_unconverged_false`
* note: False: the result object of the solver is not looked at, so a solve that did not converge returns like one that did (C97_unconverged_false). C97_solution_partial: if the method finds a solution of the global system on one process, then every process gets its part of one, and its own rows are satisfied.

### C98 Domain markers of elements (proved)

In a grid created by the explicit factory there is exactly one element for every inserted element, and the element with insertion index k has the vertices and the domain marker of the k-th inserted element, in whatever order the elements are sorted.

* modules: `Markers`
* proved: `C98_created_2d`, `C98_created_3d`
* note: 2D and 3D.

### C99 Markers of interface elements under adaptation (proved)

Refining the interface keeps the marker at every point of the interface, and added facets have the marker they were added with and keep it; after any history of operations every marker is one that was given by the user or 1; reading the marker of an interface element changes nothing.

* modules: `Markers`
* proved: `C99_values`, `C99_inherited`, `C99_covered`, `C99_covered_added`, `C99_read`
* note: 2D, explicit factory. The host grid enters by contracts.

### C100 Length of integrationOuterNormal on the interface in 3D (partial)

integrationOuterNormal of an edge of an interface triangle has the length of the edge.

* modules: `Normals`
* proved: `C100_length_iff`
* refuted: `C100_length_false`
* note: Refuted: C100_length_false gives a triangle; C100_length_iff: right iff twice the area of the triangle is one.

### C101 Number of sub-entities of interface edges and vertices (partial)

subEntities(cc) of an interface entity of codimension greater than 0 returns the number of its sub-entities of codimension cc.

* modules: `SubEntities`
* proved: `C101_interface_partial`
* refuted: `C101_interface_false`
* note: Refuted: C101_interface_false; C101_interface_partial: the answer is right exactly for cc = 0.

### C102 Explicit factory orients tetrahedra positively (partial)

In 3D every element of a created grid is positively oriented, whatever vertex order the caller used.

* modules: `Factory`
* proved: `C102_false_3d`, `C102_positive_3d_partial`
* note: Refuted: C102_false_3d; the factory keeps the order, so that C102_positive_3d_partial needs positively oriented input.

### C103 Boundary segment indices are consecutive (partial)

In a created grid the values of boundarySegmentIndex are exactly 0,...,numBoundarySegments()-1.

* modules: `Segments`
* proved: `C103_consecutive_partial`
* refuted: `C103_gap_false`
* note: C103_consecutive_partial: if no inner facet was inserted both as interface and as boundary segment; C103_gap_false: otherwise there can be gaps.

### C104 Gmsh reader: files that are not well-formed or not numbered consecutively (partial)

The reader never reads outside of an element line, whatever integers it contains, and it respects the node numbers of the file.

* modules: `Gmsh`
* proved: `C104_inside_iff`
* refuted: `C104_outside_false`, `C104_node_number_false`
* note: Refuted: C104_outside_false (C104_inside_iff is the exact condition for staying inside) and C104_node_number_false (node numbers are ignored).

### C105 Iteration over interface elements after adaptation and on the boundary (partial)

Iterating over the elements of the interface grid visits each interface segment exactly once at all times, also on the domain boundary.

* modules: `InterfaceIter`
* proved: `C105_once_partial`
* refuted: `C105_false`
* note: Refuted: elements created by adapt have indeterminate insertion numbers; if they are equal the segment is visited twice, on the boundary possibly not at all (C105_false). C105_once_partial: once if the numbers differ.

### C106 Interface leaf indices for the elements that are visited (partial)

After an index update the indices of interface elements and vertices of the grid are exactly 0,...,size-1 without repetition, at all times.

* modules: `InterfaceIndexSet`
* proved: `C106_visited_partial`
* refuted: `C106_double_false`
* note: C106_visited_partial: if neighbouring bulk elements have different insertion numbers, as in a created grid. C106_double_false: after adapt the (indeterminate) numbers may be equal, then an element is counted twice.

### C107 Marks of the interface grid: the last mark counts (partial)

For the interface grid, after mark(r, e), getMark(e) returns r until the next mark of e or postAdapt.

* modules: `Marks`
* proved: `C107_interface_exact`, `C107_interface_partial`
* refuted: `C107_interface_zero_false`
* note: Refuted: mark(0, e) does not take back an earlier mark (C107_interface_zero_false). C107_interface_exact: the last non-zero mark counts; C107_interface_partial: right if no call passes 0.

### C108 Conflict components in later cycles at the boundary (partial)

In every adaptation cycle two requests carry the same component number only if they are linked by a chain of requests with overlapping conflict zones.

* modules: `Components`
* proved: 
* refuted: `C108_second_adapt_false`
* note: Refuted: postAdapt does not reset infinite cells, so from the second cycle on requests at the boundary may share a number without being linked (C108_second_adapt_false). It holds for zones of leaf elements by C24_linked and C24_cycles.

### C109 Removing tips and junctions (partial)

Requesting the removal of a tip or junction vertex leaves the interface unchanged.

* modules: `InterfaceOps`
* proved: `C109_other_vertices`, `C109_unchanged_partial`
* refuted: `C109_tip_false`
* note: Refuted: the segments are erased before their number is checked (C109_tip_false; exact effect in C109_other_vertices). C109_unchanged_partial: right for vertices without segments.

### C110 Requests are cleared (partial)

After postAdapt no request and no mark is left over, for both grids, and crossings are queued at most once.

* modules: `Adapt`
* proved: `C110_cleared_partial`
* refuted: `C110_cross_false`, `C110_interface_marks_false`, `C110_interface_cycle_false`
* note: C110_cleared_partial: postAdapt of the bulk grid clears the queues and the bulk marks. Refuted: interface marks are left (C110_interface_marks_false), a cycle closed by postAdapt of the interface grid keeps the requests (C110_interface_cycle_false), crossings are queued again (C110_cross_false).

### C111 Interface segments stay facets (partial)

At every time each interface segment is a facet of the current triangulation, whatever sequence of interface operations was executed.

* modules: `InterfaceOps`
* proved: `C111_facets_partial`
* refuted: `C111_late_false`, `C111_cross_false`
* note: C111_facets_partial: if no facet is added while its refinement is pending and a crossing vertex is joined with the third vertex. Refuted otherwise: C111_late_false, C111_cross_false.

### C112 ensureInterfaceMovement does not move the mesh, however it ends (partial)

After ensureInterfaceMovement(shifts) every vertex is at the position it had before the call, also if an exception is thrown, with machine numbers.

* modules: `Movement`
* proved: `C112_3d`
* refuted: `C112_thrown_false`, `C112_undefined_false`, `C112_rounding_false`
* note: Refuted: an exception after moving leaves the vertices moved (C112_thrown_false, C112_3d), the behaviour is undefined if the interface meets a corner (C112_undefined_false), and adding and subtracting a shift does not give the same number with rounding (C112_rounding_false).

### C113 ensureVertexMovement returning false means the movement is safe (partial)

If ensureVertexMovement(shifts) returns false, every cell has positive volume after moveVertices(shifts); it leaves vertex positions unchanged however it ends.

* modules: `Movement`
* proved: `C113_positive_partial`
* refuted: `C113_positive_false`, `C113_unchanged_false`
* note: C113_positive_partial: if every cell has a removable vertex that is not queued yet; otherwise refuted (C113_positive_false). In 3D the exception leaves the vertices moved (C113_unchanged_false).

### C114 Parallel: ghosts are facet neighbours (partial)

On each process an element is ghost exactly when it is not interior there and shares a facet with an interior element; recomputing the partition starts from empty maps.

* modules: `Parallel`
* proved: `C114_ghost_partial`
* refuted: `C114_clear_false`, `C114_interface_false`
* note: C114_ghost_partial: without interface vertices; refuted with them (C114_interface_false). The loop that clears the maps runs over an array and passes its end (C114_clear_false).

### C115 Parallel: every ghost gets data (partial)

In a forward communication every ghost element of the bulk grid receives the data of its owner.

* modules: `Parallel`
* proved: `C115_complete_partial`
* refuted: `C115_interface_false`
* note: C115_complete_partial: without interface vertices. Refuted with them: ghosts due to the interface get nothing (C115_interface_false).

### C116 Object stream: errors, alignment and readStream (partial)

Reading more than was written is reported, values of any types may be mixed, and readStream copies exactly what has not been read yet.

* modules: `ObjStream`
* proved: `C116_readStream_partial`
* refuted: `C116_end_false`, `C116_alignment_false`, `C116_readStream_false`
* note: Refuted: without assertions reading too much is not reported (C116_end_false), mixed alignment stores at misaligned addresses (C116_alignment_false), readStream after a read takes too many bytes (C116_readStream_false). C116_readStream_partial: right if nothing was read before.

### C117 The volumes of a cut set add up exactly (partial)

With the thresholds of the code the volumes of the triangles of a cut set add up to the area of the intersection polygon.

* modules: `Clip`
* proved: 
* refuted: `C117_cutset_false`
* note: Refuted by C117_cutset_false: triangles below the threshold are dropped. The bounds are in C41.

### C118 Distance at vertices that are not interior (partial)

The stored distance is the distance to the interface for every vertex of the grid, on every process.

* modules: `Distance`
* proved: 
* refuted: `C118_ghost_false`
* note: Refuted: vertices that are not interior keep 1e100 (C118_ghost_false, for all such vertices).

### C119 Ratio indicator: unit of length on the interface, documented minimum (partial)

The decision for interface elements does not depend on the unit of length, and the permitted minimum is half the shortest edge as documented.

* modules: `Indicator`
* proved: 
* refuted: `C119_documented_minimum_false`, `C119_segment_unit_false`
* note: Refuted: interface elements longer than 240 are to be coarsened whatever the maximum (C119_segment_unit_false); the minimum is a quarter of the shortest edge (C119_documented_minimum_false).

### C120 Persistent container after adapt() without data handle (partial)

After adapt() or globalRefine and resize every entity of the grid has an entry in a persistent container.

* modules: `Container`
* proved: 
* refuted: `C120_unannounced_false`
* note: Refuted: without a data handle the sequence number stays and resize does nothing (C120_unannounced_false).

### C121 iterativeSolve: reported number of iterations and its arguments (partial)

The reported 'iterations' is the number of passes performed, iter=0 is handled, and f_tol is used when given.

* modules: `Solve`
* proved: 
* refuted: `C121_iterations_false`, `C121_zero_false`, `C121_ftol_false`
* note: Refuted: the number is one less (C121_iterations_false), iter=0 fails (C121_zero_false), f_tol is only used if tol was given too (C121_ftol_false).

### C122 moveMesh moves only if the check succeeded (partial)

moveMesh moves the interface only if ensureInterfaceMovement returned False for twice the shifts, adapts the grid in each step, and accepts any sequence of shifts.

* modules: `MoveMesh`
* proved: 
* refuted: `C122_unchecked_false`, `C122_adapted_false`, `C122_list_false`
* note: Refuted: after ten steps the interface is moved although the check returned True (C122_unchecked_false); without functions nothing is adapted (C122_adapted_false); a Python list of shifts is repeated instead of doubled (C122_list_false).

### C123 Interface queries agree for grids of the implicit factory (partial)

For grids of the implicit factory the three queries agree and are true exactly for the inserted interface segments.

* modules: `InterfaceOps`
* proved: 
* refuted: `C123_implicit_false`
* note: Refuted: the implicit factory sets no vertex flags (C123_implicit_false).

### C124 Halving the longest edge of a triangle with one long edge (partial)

If the indicator asks to refine a triangle and its longest edge is halved, all edges of the two new triangles have at least the permitted minimal length.

* modules: `Indicator`
* proved: 
* refuted: `C124_false`
* note: Refuted if only one edge is too long: C124_false.

### C125 Coarsening of bulk elements removes the latest vertices and keeps corners (partial)

The vertex that is removed because a bulk element is marked for coarsening is the one inserted last by refinement (higher insertion level has priority, as the code comment says), and not a corner of the domain.

* modules: `LongestEdge`
* proved: `C125_chosen_partial`
* refuted: `C125_level_false`, `C125_corner_false`
* note: Refuted: vertices of the lowest level come first (C125_level_false) and corners may be chosen (C125_corner_false). C125_chosen_partial states what is chosen if the comparison is a strict weak ordering.

### C126 A container that was never resized has data for intermediate elements (partial)

A data container offers entries for the intermediate elements also if it was constructed and never resized.

* modules: `Container`
* proved: 
* refuted: `C126_unresized_false`
* note: Refuted: C126_unresized_false.

### C127 Entities that come back get the value passed to resize (partial)

After a resize of a data container an entity that was not in the grid at the previous resize has the value passed to resize.

* modules: `Container`
* proved: 
* refuted: `C127_returned_false`
* note: Refuted: an element that vanished keeps its entry and has its former value when it comes back (C127_returned_false).

### C128 The callback is called before every interface solve (partial)

iterativeSolve calls the callback every time before it solves one of the schemes.

* modules: `Solve`
* proved: 
* refuted: `C128_false`
* note: Refuted: the callback is not called between the bulk and the interface scheme (C128_false).

### C129 Skeleton functions vanish inside elements (partial)

A skeleton function is zero inside elements, whatever it was bound to before.

* modules: `Trace`
* proved: `C129_elements_partial`
* refuted: `C129_entity_false`
* note: C129_elements_partial: zero as long as no interface intersection was bound. Refuted afterwards: bind(entity) keeps the value of the last facet (C129_entity_false).

### C130 Coupling block for interface elements on the domain boundary (partial)

The coupling block of the bulk residual is assembled also for interface elements on the domain boundary.

* modules: `Jacobian`
* proved: 
* refuted: `C130_boundary_false`
* note: Refuted: outside() is called without asking for a neighbour (C130_boundary_false).

### C131 Coupling block of the interface residual for continuous bulk spaces (partial)

For continuous bulk spaces too the coupling block holds the central difference quotients of the interface residual.

* modules: `Jacobian`
* proved: `C131_continuous`
* refuted: `C131_continuous_false`
* note: Refuted: entries of shared degrees of freedom are exactly twice the quotient, since both sides add the column (C131_continuous, C131_continuous_false).

### C132 Callback data after an update of the Jacobian (partial)

After the monolithic Jacobian is updated the data of the callback belongs to the current solution.

* modules: `Jacobian`
* proved: 
* refuted: `C132_update_false`
* note: Refuted: the callback is not called after the last reset (C132_update_false).

### C133 The monolithic Jacobian after a change of the sparsity pattern (partial)

solve uses the current four blocks also if their sparsity pattern changed since the last solve.

* modules: `Jacobian`
* proved: 
* refuted: `C133_stale_false`
* note: Refuted: if the pattern shrinks old entries stay in the combined matrix (C133_stale_false).

### C134 Intersection volume on the interface (partial)

On the interface intersectionVolume returns the length of the common part of the two segments.

* modules: `Transfer`
* proved: `C134_interface_partial`
* refuted: `C134_interface_false`
* note: C134_interface_partial: if one of the segments contains the other. Refuted otherwise: it is the minimum of the lengths (C134_interface_false).

### C135 Transfer of piecewise constant data with the thresholds of the code (partial)

With the thresholds of the code every new element gets a value whose integral differs from the one of the old values by a multiple of the threshold.

* modules: `Transfer`
* proved: `C135_tolerance_partial`
* refuted: `C135_small_false`
* note: C135_tolerance_partial: for elements with a part above the threshold. Refuted for small elements, which are not written at all (C135_small_false).

### C136 Transfer of constants at sharp corners of the interface (partial)

Whenever a segment of the interface replaces two others, constants stay constant.

* modules: `Transfer`
* proved: 
* refuted: `C136_join_false`
* note: Refuted at a sharp corner: C136_join_false.

### C137 Removing an interface vertex at a bend (partial)

The star is cut along the new segment also at bends of the interface and if the two neighbours are joined already.

* modules: `HoleRemesh`
* proved: 
* refuted: `C137_bent_false`, `C137_adjacent_false`
* note: Refuted: at a bent interface a neighbour may lie between the interface and its chord, then all facets go to one hole and an end point stays a null handle (C137_bent_false); the same if the two neighbours are joined by an edge of the star (C137_adjacent_false).

### C138 Boundary ids on several processes and after refinement (partial)

The boundary ids of a DGF file arrive at the intersections on every process and after refinement.

* modules: `BoundaryIds`
* proved: `C138_parallel_partial`
* refuted: `C138_refined_false`, `C138_parallel_false`
* note: Refuted on several processes (C138_parallel_false: local renumbering) and for the halves of a refined boundary edge (C138_refined_false); C138_parallel_partial gives a case that works.

### C139 Interface segments of the implicit factory (partial)

A segment inserted as interface in the implicit factory is an interface facet of the grid if it is a facet; inserting a point again does not change numbers.

* modules: `Implicit`
* proved: `C139_segment_partial`
* refuted: `C139_index_false`, `C139_stale_false`, `C139_interface_false`
* note: Refuted: no facet is ever an interface facet since the vertices are not flagged (C139_interface_false); segments inserted before a point that is inserted again are stored under stale ids (C139_stale_false); C139_index_false. C139_segment_partial: stored under the right ids if no vertices follow.

### C140 The factory of the interface grid with new vertices (partial)

The same holds if vertices that the mesh does not have are given to the factory of the interface grid.

* modules: `InterfaceFactory`
* proved: 
* refuted: `C140_new_vertex_false`
* note: Refuted: a new vertex has no valid id until the next update of the grid; then the inserted element is lost (C140_new_vertex_false).

### C141 Incident vertices of the interface (partial)

`incidentInterfaceVertices` visits exactly the vertices joined with the given one by an interface element.

* modules: `Incident`
* proved: `C141_vertices_flagged`, `C141_vertices_partial`
* refuted: `C141_vertices_false`, `C141_curvature_false`
* note: It visits all flagged vertices joined by any edge of the mesh (C141_vertices_flagged), so that the claim is refuted (C141_vertices_false) and the curvature of a straight interface is wrong next to another one (C141_curvature_false); C141_vertices_partial says when it holds.

### C142 Comparison of interface elements and of elements during adaptation (partial)

Two interface elements, and two old or intermediate elements that the data handle gets during adaptation, compare equal if and only if they are the same.

* modules: `Entity`
* proved: `C142_interface_partial`
* refuted: `C142_interface_false`, `C142_middle_false`, `C142_old_false`
* note: Interface elements if the insertion numbers differ (C142_interface_partial, C142_interface_false). Refuted for the triangles of cut sets, all of which are equal (C142_middle_false), and for old elements, which are compared by a handle that belongs to a new element (C142_old_false).

### C143 Assignment of facets and seeds of old elements (partial)

An assigned facet has the id of the original; a seed says it is valid exactly if the entity can be restored from it.

* modules: `Entity`
* proved: `C143_facet_copy_partial`
* refuted: `C143_old_false`, `C143_assign_false`
* note: Refuted: an assignment between facets keeps the cached id of the target (C143_assign_false); seeds of old elements say they are valid but give another element (C143_old_false). C143_facet_copy_partial: facets whose id was not asked for before.

### C144 Geometry in the father of copies and on the interface (partial)

A copy of an element keeps its father; on the interface mapping by geometryInFather() and the geometry of the father gives the same point as the element's own geometry.

* modules: `Entity`
* proved: `C144_interface_partial`
* refuted: `C144_copy_false`, `C144_interface_false`
* note: Refuted: copies lose the father (C144_copy_false), wrong at a straightened bend (C144_interface_false). C144_interface_partial: right if the element lies on the line of the father.

### C145 Domain markers of the implicit factory and under adaptation (partial)

The implicit factory keeps domain markers, and markers of elements are kept when the grid is adapted.

* modules: `Markers`
* proved: `C145_values`
* refuted: `C145_implicit_false`, `C145_refined_false`
* note: Refuted: the implicit factory ignores markers (C145_implicit_false); whenever the number of elements grows in an insertion some element has marker 0 (C145_refined_false). C145_values: after any sequence of insertions and removals all markers are old ones or 0.

### C146 Interface markers when the interface is extended or joined (partial)

An extension of the interface has the marker of the part it extends, joining two parts keeps their markers, reading a marker of any facet changes nothing.

* modules: `Markers`
* proved: 
* refuted: `C146_read_false`, `C146_extend_false`, `C146_join_false`
* note: Refuted: an extension gets 1 (C146_extend_false), joining two parts loses one of the markers (C146_join_false), reading the marker of a facet that is no longer an interface element makes it one (C146_read_false).

### C147 Curvature at small scales, centers of flat parts, elements at the boundary of the interface (partial)

The curvature operator computes the curvature of interface vertices at any scale of the coordinates, the center stored for a vertex depends only on the points of that vertex, and the element layout is defined for every interface.

* modules: `Curvature`
* proved: 
* refuted: `C147_small_false`, `C147_element_boundary_false`, `C147_stale_center_false`
* note: Refuted: the threshold of the determinant is absolute, so that points 1e-5 apart on a circle are reported as flat (C147_small_false); after a flat vertex the centre is the one of the vertex before (C147_stale_center_false); an element at the boundary of the interface makes the element layout ask a boundary intersection for its outside element, which passes the end of a circulator (C147_element_boundary_false). C47 says what holds.

### C148 Interface element does not depend on the side after adaptation (partial)

Converting a facet into an interface element gives equal interface elements from both adjacent bulk elements, also if adaptation made one of them.

* modules: `InterfaceIter`
* proved: 
* refuted: `C148_false`
* note: Refuted: for equal stored insertion numbers, which adaptation does not exclude, the interface elements differ (C148_false).

### C149 Interface boundary segment indices of elements with several boundary facets (partial)

Each boundary intersection of the interface grid has a boundarySegmentIndex below numBoundarySegments(), and different boundary intersections have different indices, also if an interface element has several boundary facets.

* modules: `InterfaceIndexSet`
* proved: 
* refuted: `C149_equal_false`, `C149_range_false`
* note: Refuted: the two boundary intersections of such an element share an index (C149_equal_false), and an index is not below numBoundarySegments() (C149_range_false).

### C150 New elements are assigned the component of their request when an extension is given up (partial)

After adapt(), each new element around a vertex that was inserted for a request is registered with the connected component of that request, also if another request of the list was given up because the new interface segment cannot be created.

* modules: `Adapt`
* proved: 
* refuted: `C150_failed_false`
* note: Refuted: the pairing of vertices and components is shifted (C150_failed_false).

### C151 Movement checks never queue corners of the domain (partial)

ensureInterfaceMovement and ensureVertexMovement never queue a corner of the domain for removal and never make a straight boundary vertex a corner for later calls.

* modules: `Movement`
* proved: 
* refuted: `C151_flag_false`, `C151_corner_false`
* note: Refuted: the flag is computed for the moved positions and kept, so corners can be queued (C151_corner_false) and straight vertices become corners for ever (C151_flag_false).

### C152 The + side of an interface element after adaptation (partial)

Which of the adjacent elements is the + side of an interface element does not depend on how the interface element was obtained, also for elements made by adaptation.

* modules: `Trace`
* proved: 
* refuted: `C152_side_false`
* note: Refuted: for equal insertion numbers it depends on the side (C152_side_false).

### C153 Object streams can be used after they were copied from (partial)

Copying and assigning object streams never lets two streams free the same buffer, never leaves a stream using freed memory and never loses contents, also if the source of a copy is used again.

* modules: `ObjStream`
* proved: 
* refuted: `C153_two_copies_false`, `C153_source_false`, `C153_growth_false`, `C153_self_false`
* note: Refuted: two copies of one stream free the buffer twice (C153_two_copies_false), a source used after its copy is gone or has grown reads freed memory (C153_source_false, C153_growth_false), self-assignment loses the contents (C153_self_false).

### C154 Parallel: interface communication at junctions of three processes (partial)

Data gathered for an interface element on its owner reaches exactly that element on the processes where it is a ghost, also where interface elements of three processes meet at a vertex.

* modules: `Parallel`
* proved: 
* refuted: `C154_junction_false`, `C154_false`
* note: Refuted: C154_junction_false, C154_false give a junction at which the lists of sender and receiver differ.

### C155 Intersection geometries of the interface conform (proved)

For every intersection of an interface element with its neighbours: the geometry of the intersection is the geometry of the inside element after geometryInInside, and, if there is an outside element, also the geometry of the outside element after geometryInOutside; indexInOutside is the number of the common facet in the outside element. Points on the intersection therefore have the same coordinates seen from both sides, also at junctions.

* modules: `InterfaceGeo`
* proved: `C155_conforming_2d`, `C155_conforming_3d`

### C156 Boundary flag of a vertex (proved)

When vertices are removed because of the movement of the mesh, the boundary flag of a vertex is 0 if it is inside of the domain; if it is on the boundary and has exactly two neighbours that are on the boundary, the flag is 1 unless the three vertices are on a line (up to an angle with sine 1e-8). It is defined for every vertex, and once computed it stays.

* modules: `BoundaryFlag`
* proved: `C156_interior`, `C156_boundary`, `C156_straight`, `C156_corner`, `C156_cached`, `C156_defined`

### C157 Corners of the domain have boundary flag 1 (partial)

The boundary flag of every vertex at which the boundary of the domain has a corner is 1, so that the vertex is not removed when the mesh is moved.

* modules: `BoundaryFlag`
* proved: `C157_three`
* refuted: `C157_3d_false`, `C157_false`
* note: Refuted: in the unit square cut along a diagonal the corners at the ends of the diagonal get flag 0, because the other end is a third neighbour on the boundary (C157_false); any vertex with three neighbours on the boundary gets 0 (C157_three); in 3D no vertex ever gets flag 1 (C157_3d_false). What holds is C156.

### C158 Parallel: elements are distributed evenly in 3D (partial)

In 3D with P processes and N>=P elements the numbers of elements on two processes differ by at most one, and no process is without elements.

* modules: `Ranks`
* proved: `C158_idle`, `C158_load_partial`
* refuted: `C158_false`
* note: Refuted: setRanks divides by number_of_cells(), which in 3D counts infinite cells too, so the last ranks get fewer elements or none (C158_false: cube of six tetrahedra on two processes, loads 6 and 0; C158_idle: whenever N*P is at most the number of all cells, process 0 has all elements). Holds: the load of a process is at most (all cells)/P + 1 (C158_load_partial).

### C159 Parallel: iteration over a partition visits exactly its entities (proved)

On every process, iteration over the elements, interface elements or facets of a partition (interior, interior-border, overlap, overlap-front, all, ghost) visits exactly the entities present on the process whose partition type belongs to this partition, each once and in the order of the grid. Interior elements are those owned by the process, and every element is visited as interior on exactly one process; with one process all entities are interior.

* modules: `PartIter`
* proved: `C159_elements`, `C159_owner`, `C159_serial`, `C159_interface`, `C159_facets`
* note: Interface elements under Describes: the iterator stops at the side that is the inside of the interface element (C19, C55).

### C160 Parallel: facets and vertices of visited elements are visited (proved)

On every process, the facets of an interior element are interior or border and those of a ghost are present. The same holds for vertices (edges) if the elements at the vertex are connected by facets, for the vertices of the interface in 2D and edges of the interface in 3D, and for vertices of the interface in 3D if the interface elements at the vertex are connected by edges. So iteration over interior and border entities visits all sub-entities of interior elements.

* modules: `PartIter`
* proved: `C160_facets`, `C160_vertices`, `C160_joints`, `C160_interface_vertices`
* note: Connection of the elements at a vertex is a hypothesis; without it see C161.

### C161 Parallel: vertices of interface elements on a process are present in 3D (partial)

In 3D, every vertex of an interface element that a process owns is in some partition of this process, so that an iteration over vertices visits it.

* modules: `PartIter`
* proved: `C161_missing_partial`
* refuted: `C161_false`
* note: Refuted: C161_false with two interface triangles that have only a vertex in common and belong to two processes; ghosts are only made at common edges, the vertex gets partition -1. C161_missing_partial says exactly which vertices are missing; for connected stars the claim is C160_interface_vertices.

### C162 ghostSize counts the ghosts of every codimension (partial)

ghostSize(codim) is the number of ghost entities of this codimension on the process, for every codimension.

* modules: `PartIter`
* proved: `C162_edges_partial`
* refuted: `C162_false`
* note: Refuted: edges in 3D are not counted (C162_false, C162_edges_partial); interface/grid.hh:427-440 omits edges of the interface in 3D in the same way. The other codimensions are C163.

### C163 ghostSize of elements, facets and vertices (proved)

ghostSize(0), ghostSize(1) and ghostSize(dimension) of the bulk grid are the numbers of ghost elements, facets and vertices that an iteration over the ghost partition visits.

* modules: `PartIter`
* proved: `C163_elements`, `C163_facets`

### C164 Several removals of interface vertices in one adaptation (partial)

Removing an interface vertex with exactly two interface elements joins its neighbours, also if earlier requests of the same call of adapt() created elements at the vertex (for example by removing its neighbour on the interface).

* modules: `NewFaces`
* proved: 
* refuted: `C164_new_face_false`, `C164_false`
* note: Refuted: the order of the slots of an element (info().cgalIndex) is only computed by setIds() at the end of adapt(); a removal reads it for all elements at the vertex, and elements created in the same call have an uninitialised one (C164_new_face_false, C164_false: two neighbours on a straight interface). What holds is C165.

### C165 Removal of interface vertices at old elements (proved)

If no element at an interface vertex was created by an earlier request of the same call of adapt(), whatever the earlier requests did elsewhere, its interface elements are found, each once and no others, and a vertex with exactly two of them is removed from the interface such that its neighbours are joined.

* modules: `NewFaces`
* proved: `C165_settled`, `C165_found`, `C165_removal`, `C165_join`

### C166 Parallel: facets added to the interface have an index (partial)

After addInterface(intersection) every element of the interface grid that is interior on a process has an index in the leaf index set of the interface grid on this process.

* modules: `AddParallel`
* proved: 
* refuted: `C166_never_false`, `C166_false`
* note: Refuted: addInterface computes the indices of the interface grid before the partitions, so on several processes the new element is skipped and has no index on any process (C166_never_false for all grids, C166_false for two triangles). loadBalance() repairs it (C167).

### C167 Indices of interface elements after addInterface and loadBalance (proved)

On one process all interface elements, old and new, have consecutive zero-based unique indices after addInterface. On several processes they have after loadBalance(): exactly those elements of the interface grid have an index whose inside or outside belongs to the process or that meet an interface element of the process.

* modules: `AddParallel`
* proved: `C167_serial`, `C167_balanced`

### C168 Grids of the explicit factory in 2D can be circulated (proved)

Let triangles be inserted into the explicit factory in 2D that are not degenerate, such that no edge belongs to more than two triangles, two triangles with a common edge lie on different sides of it, no vertex belongs to more than two boundary edges and the triangles at a vertex are connected through edges at this vertex. Then createGrid() finds all inserted elements and does not throw, and on the created grid incidentElements(vertex), incidentFacets(vertex) and incidentVertices(vertex) visit exactly the inserted elements, their edges and their other vertices at the vertex, each once; the circulators of CGAL come back to their start.

* modules: `Circulate`
* proved: `C168_created`, `C168_elements`, `C168_facets`, `C168_vertices`

### C169 Explicit factory: domains whose boundary touches itself (partial)

For every conforming mesh of a connected domain in 2D, also if the boundary touches itself in a vertex (four boundary edges at a vertex), createGrid() of the explicit factory succeeds and incidentElements(vertex) visits all elements with this vertex.

* modules: `Circulate`
* proved: 
* refuted: `C169_created_false`, `C169_elements_false`
* note: Refuted: for a domain with a triangular hole that touches the outer boundary in a vertex, infiniteNeighborMap joins the two infinite faces at each wedge of elements, so that the pointers at this vertex form two separate cycles. If an element of the other wedge starts with this vertex, createGrid throws that it was not found (C169_created_false); otherwise the grid is created and incidentElements leaves it out (C169_elements_false). What holds is C168 (no such vertex).

### C170 Grids read from DGF files (proved)

If the constructor of DGFGridFactory with the name of a file returns, then the file exists and is in the format, and there is a grid with exactly one element for every element of the file: the one with insertion index k has the vertices of the k-th element of the file, and the vertices are those of the file in this order. If the file does not exist or is not in the format, the constructor throws. The constructor with a stream gives the same grid for a stream in the format.

* modules: `Dgf`
* proved: `C170_file_2d`, `C170_file_3d`, `C170_throws`, `C170_stream_2d`, `C170_stream_3d`
* note: The parser of dune-grid (text to lists) is an input of the model; coordinates in an ordered field; boundary ids are C85.

### C171 DGF streams that are not in the format are reported (partial)

If the stream that is passed to the constructor of DGFGridFactory is not in the DGF format, the constructor throws, as it does for a file.

* modules: `Dgf`
* proved: 
* refuted: `C171_stream_false`
* note: Refuted: the constructor with a stream ignores the value of generate; for every stream that can be reset but is not in the format it returns and the pointer grid_ is never initialised (C171_stream_false, for all orders and dimensions).

### C172 Parameters of a DGF file (partial)

If a DGF file has parameters for elements or vertices, parameter(element) and parameter(vertex) return those of the element or vertex.

* modules: `Dgf`
* proved: 
* refuted: `C172_parameter_false`, `C172_file_false`
* note: Refuted: numParameters is 0 for every codimension, so parameter throws for every element and vertex of every file (C172_parameter_false); C172_file_false is a file with parameters that is read and whose first element has a parameter.

### C173 Insertion indices of boundary intersections (partial)

insertionIndex(intersection) of the grid factories returns for a boundary intersection the number of the call of insertBoundarySegment that inserted it.

* modules: `BoundaryIds`
* proved: 
* refuted: `C173_zero_false`, `C173_square_false`, `C173_dgf_false`
* note: Refuted: both factories return the boundary id, which is 0 for all intersections without calls of addBoundaryId (C173_zero_false) and the id of the file for DGF files (C173_dgf_false). boundarySegmentIndex is the number of the call (C15).

### C174 Insertion indices of elements of the implicit factory, vertices first (proved)

If vertices at different positions are inserted into the implicit factory and then elements, then insertionIndex of an element of the grid is k exactly when the k-th inserted element is the last one with the vertices of the element; in particular two elements never have the same insertion index.

* modules: `Implicit`
* proved: `C174_index`, `C174_injective`
* note: What CGAL does when a vertex is inserted is any relation in which cells with the same handle keep their info (Retri).

### C175 Insertion indices of all elements of the implicit factory (partial)

After vertices and the elements of a triangulation were inserted into the implicit factory, in any order, each element of the grid has as insertion index the number of an inserted element with its vertices.

* modules: `Implicit`
* proved: 
* refuted: `C175_diagonal_false`, `C175_later_vertex_false`
* note: Refuted: elements that CGAL does not make are ignored and the elements made instead have an indeterminate insertion index (C175_diagonal_false); a vertex inserted after the elements leaves the number on a cell with other vertices (C175_later_vertex_false). True part: C174.

### C176 Grids read from msh files (proved)

Let an msh file describe a conforming mesh of simplices in which no facet is named twice. Then a grid can be read from it. It has exactly one element for every element of full dimension in the file: the one with insertion index k has the nodes of the k-th and its last tag as domain marker. A facet named in the file is a boundary segment of the grid if it belongs to exactly one element of the file, otherwise it is an interface segment whose marker is the last tag; no other facet is a boundary or interface segment. If a facet is named twice, no grid is read.

* modules: `Gmsh`
* proved: `C176_readable_2d`, `C176_readable_3d`, `C176_elements_2d`, `C176_elements_3d`, `C176_segments_2d`, `C176_segments_3d`, `C176_duplicate`
* note: Parsing of words is that of Gmsh.generate; coordinates are in an ordered field; the file is any text with the sections of nodes and elements. The neighbours of the elements are C13. Quadrilaterals are excluded (C178).

### C177 Tags of boundary facets in msh files (partial)

If a facet on the boundary is named in an msh file with a tag, then boundaryId of the intersection on this facet is the tag.

* modules: `Gmsh`
* proved: 
* refuted: `C177_tags_false`, `C177_square_false`
* note: Refuted: the reader never calls addBoundaryId, so boundaryId is 0 for all intersections of all files (C177_tags_false); C177_square_false is a file where the facet is a boundary segment with tag 3. The domain marker of interface segments is the tag (C176).

### C178 Elements of msh files that are not simplices are rejected (partial)

If an msh file has an element of full dimension that is not a simplex, reading it is reported as an error.

* modules: `Gmsh`
* proved: 
* refuted: `C178_quadrilateral_false`
* note: Refuted: in a release build the geometry type is only asserted; a quadrilateral becomes the triangle of its first three corners without an error (C178_quadrilateral_false).

### C179 Msh files passed as streams (partial)

The constructor of GmshGridFactory with a stream reads the same grid as the one with the name of a file with this content.

* modules: `Gmsh`
* proved: 
* refuted: `C179_stream_false`
* note: Refuted: this constructor never sets the pointer to the factory; the behaviour is undefined for all files with nodes (C179_stream_false).

### C180 adapt() reports whether the triangulation changed (partial)

adapt() returns true exactly when the triangulation was changed.

* modules: `Adapt`
* proved: 
* refuted: `C180_removal_false`, `C180_stale_false`, `C180_failed_false`, `C180_handle_false`
* note: Refuted: false if vertices are only removed (C180_removal_false), if all requested edges are gone (C180_stale_false), if an extension is given up (C180_failed_false), and for adapt(handle) (C180_handle_false). True part: C28.

### C181 Concurrent interface queries (partial)

isInterface may be called from several threads on a constant grid: each call returns the same answer as a call on its own.

* modules: `Threads`
* proved: 
* refuted: `C181_overlap_false`, `C181_wrong_answer_false`
* note: Refuted: overlapping calls share a static vector, any call can return the answer of any other (C181_overlap_false, C181_wrong_answer_false), already with sequentially consistent memory. True part: C49.

### C182 Components in whatever order the requests were made (partial)

When adapt is called with pending requests, building the connected components is defined, and the component of each request contains exactly the old elements in the conflict zones of the requests linked with it, each once, in whatever order the requests were made.

* modules: `ConnComp`
* proved: 
* refuted: `C182_order_false`
* note: Refuted: a default-constructed component with an indeterminate grid pointer is used if the request behind comes first; C182_order_false gives two requests on a fresh grid. Exact condition: C57_exact.

### C183 A refinement request splits the edge it was made for or nothing (partial)

When adapt() carries out a request to refine an edge, the edge that is split is the one for which the request was made; a request whose edge is gone is dropped.

* modules: `Adapt`
* proved: 
* refuted: `C183_bulk_false`, `C183_cached_false`
* note: Refuted: bulk requests, whose new vertices have an indeterminate id (C183_bulk_false), and a second adapt() without postAdapt() (C183_cached_false). True part: C59.

### C184 ensureInterfaceMovement false means the interface can be moved, in every situation (partial)

If ensureInterfaceMovement(shifts) returns false, every cell has positive volume after moveInterface(shifts).

* modules: `Movement`
* proved: 
* refuted: `C184_outside_false`, `C184_queued_false`
* note: Refuted: a crossing whose point is not on the interface edge is discarded (C184_outside_false), a queued vertex hides its cells (C184_queued_false). True part: C60.

### C185 The component of a new element can be queried in debug builds (partial)

During an adaptation the query of the component of a new element (as used for its father) returns the component of its request, in debug builds too.

* modules: `ConnComp`
* proved: 
* refuted: `C185_gap_false`
* note: Refuted: a request that joins two earlier ones leaves a gap in the component numbers; the assertion that compares the number with the size of the map fails for the components behind it (C185_gap_false). In release builds the component is returned (C57_query).

### C186 Twists of intersections (proved)

The twists returned by the twist utility of the grid are the twists of every intersection: mapping the corners of the intersection's face by the returned twist gives the corners in the numbering of the inside and of the outside element, for the mesh in two and three dimensions and for the interface grid, and no other twist does.

* modules: `InterfaceGeo`
* proved: `C186_mesh`, `C186_interface`, `C186_only`
* note: The twist utility always returns 0; C186_only shows that no other twist is right. The corners of an intersection and of the faces of its elements are those of the RefElem and InterfaceGeo models.

### C187 Refinement keeps a conforming mesh of the same domain (proved)

Refining edges of the mesh at a position strictly between their end points (in particular the longest edges of marked elements), and inserting vertices at positions inside elements, in any number and order within one adapt(), gives a conforming mesh (no degenerate elements, no hanging nodes, no overlap) that covers exactly the same domain; elements keep their orientation, the total volume does not change, and all old vertices stay where they were. Each request must be carried out for the edge it was made for (C59, C183).

* modules: `Refine`
* proved: `C187_marked`, `C187_conforming`, `C187_cycles`, `C187_volume`
* note: CGAL's insertion functions are modelled by their documented effect on the elements. A request that is carried out for another edge than the one it was made for (C183) is not covered. Positions in an ordered field.

### C188 Refinement keeps a proper mesh for all arguments (partial)

Whatever the argument where of refineEdge and the position passed to insertVertexInCell, the mesh after adapt() is conforming, has no degenerate or inverted elements and covers the same domain.

* modules: `Refine`
* proved: 
* refuted: `C188_where_false`, `C188_corner_false`, `C188_position_false`, `C188_outside_false`
* note: Refuted: where outside the interval from 0 to 1 inverts elements (C188_where_false), where = 1 and a position on an edge give degenerate elements (C188_corner_false, C188_position_false), a position outside the domain makes it grow (C188_outside_false). None of the arguments is checked. True part: C187.

### C189 Coarsening keeps a conforming mesh of the same domain (proved)

Removing vertices that are not on the boundary, in any number and order within one adapt(), keeps a conforming mesh that covers exactly the same domain; exactly the removed vertices are gone and the others are not moved. The same holds for any sequence of adaptations with insertions and removals.

* modules: `Refine`
* proved: `C189_conforming`, `C189_adapt`
* note: That CGAL fills a closed hole with a triangulation whose boundary is that of the hole is an assumption (Fills); the theorem concerns the mesh as a whole. In 3D the removal throws.

### C190 Removing a vertex keeps the domain for every vertex (partial)

Removing any vertex with removeVertex and adapt() keeps the domain covered by the mesh.

* modules: `Refine`
* proved: 
* refuted: `C190_corner_false`
* note: Refuted: a corner of the domain is cut off (C190_corner_false); removeVertex does not check. True part: C189.

### C191 A checked movement keeps a conforming mesh of the same domain (proved)

In every dimension: if no vertex on the boundary is moved and all elements have positive volume after the movement, then the moved mesh is conforming, elements do not overlap, and it covers the same domain with the same total volume. In particular, in two dimensions this holds for moveInterface after ensureInterfaceMovement has returned false with nothing queued and no crossing discarded, and for moveVertices after ensureVertexMovement has returned false if every element has a removable vertex; in three dimensions it holds for both whenever the ensure function does not throw, and then the ensure function returns false and changes nothing.

* modules: `MoveGeo`
* proved: `C191_conforming`, `C191_interface`, `C191_vertices`, `C191_interface_space`, `C191_vertices_space`, `C191_area`, `C191_domain`, `C191_disjoint`
* note: Any dimension, exact arithmetic. C192 shows that the condition on the boundary is needed; C184 and C113 show why the conditions on the answer are needed in two dimensions.

### C192 Positive areas exclude overlaps for every movement (partial)

If all elements have positive area after a movement of vertices, boundary vertices included, no two elements overlap.

* modules: `MoveGeo`
* proved: 
* refuted: `C192_boundary_false`
* note: Refuted: three triangles around a vertex can be turned around it until the last covers the first, all areas stay positive (C192_boundary_false). What holds is C191.

### C193 Refinement is nested (proved)

After any number of refinement requests for edges (0 < where < 1) or points inside elements, and after globalRefine(n) for every n, every element of the new grid lies in an element of the old grid, every old element is covered by the new elements that lie in it, and (globalRefine) the grid stays conforming with the same domain and the same old vertices. One step of globalRefine makes at most one request per edge, the requests do not hinder each other, and if none is dropped every element none of whose longest edges is an interface edge is replaced.

* modules: `Refine`
* proved: `C193_nested`, `C193_global`, `C193_refined`

### C194 globalRefine refines every element (partial)

globalRefine(n) with n > 0 refines every element of the grid.

* modules: `Refine`
* proved: 
* refuted: `C194_interface_false`
* note: Refuted: adapt() makes no request if the longest edge of a marked element is an interface edge; a triangle whose longest edge is on the interface is not refined by any number of steps (C194_interface_false). What holds is C193_refined.

### C195 Adaptation with a data handle transfers piecewise constant data correctly from the requests to the values (proved)

In 2D, adapt(handle) with the handle of a piecewise constant function, for any insertions into edges (with 0 < where < 1) and inside elements and any removals of vertices that are not on the boundary: every new element has a connected component that contains every old element overlapping with it, each once; afterwards every element has the average over it of the function before; the integral of the function does not change; values stay within the range of the values before; an element inside an old element has its value. (Exact arithmetic, no tolerances; adapt does not fail while building components; ids of elements computed before new vertices are numbered do not collide.)

* modules: `Conserve`
* proved: `C195_component`, `C195_average`, `C195_conservation`, `C195_bounds`, `C195_inside`
* note: Joins the models of marking, components, insertion, removal, assignment of components and transfer. Execution of adapt_ as Exec.Runs, hypotheses on grid and requests as Exec.Sound; concrete execution in Conserve/Examples. Requests of addToInterface that fail are excluded (C150), clipping without tolerances (C135 for tolerances).

### C196 Any number of adaptations and movements (proved)

In 2D, starting from a proper triangulation, after any number of calls of adapt(handle) (requests as in C195) and of movements to positions with positive areas that leave the boundary where it is: the grid is a proper triangulation of the same domain (conforming, counter-clockwise, no element twice), and piecewise constant data has not left the range of the values at the start; without movements the integral of the data is what it was at the start.

* modules: `Conserve`
* proved: `C196_mesh`, `C196_bounds`, `C196_conservation`
* note: Induction over histories with C195 and C191. Every adaptation meets the hypotheses of C195 on its requests (no marks left from before: C108).

### C197 Adaptation of the interface with a data handle transfers piecewise constant data correctly from the requests to the values (proved)

In 2D, let the interface be proper (elements meet only in common vertices), and let the requests be refinements of interface edges (0 < where < 1, each edge at most once), any refinements of the bulk, and removals of vertices, where a removed vertex of the interface has exactly two interface elements, lies between their other ends on a straight line, belongs to no element that is refined, and shares no element with another removed vertex. After adapt of the grid and adapt(handle) of the interface grid with the handle of a piecewise constant function: the interface is proper and consists of the same points; an element inside an old element has its value; the element that joins two old elements has their average weighted by length; the integral over the interface does not change; values stay within their range.

* modules: `InterfaceTransfer`
* proved: `C197_proper`, `C197_points`, `C197_values`, `C197_conservation`, `C197_bounds`
* note: Joins the models of interface insertion and removal, of the map of new interface elements and of the transfer loop. Hypotheses on the requests in InterfaceTransfer.Requests; concrete adaptation that refines and coarsens in InterfaceTransfer/Examples. Requests of addToInterface: C199.

### C198 Any number of adaptations and movements of the interface with its data (proved)

In 2D, starting from a proper interface, after any number of adaptations as in C197, each followed by adapt(handle) of the interface grid, and of movements of vertices that leave the interface proper: the interface is proper, and piecewise constant data on it has not left the range of the values at the start; without movements it consists of the same points, and the integral of the data over it is what it was at the start.

* modules: `InterfaceTransfer`
* proved: `C198_proper`, `C198_bounds`, `C198_points`, `C198_conservation`
* note: Induction over histories with C197.

### C199 Value on an element added to the interface (proved)

In 2D, after addToInterface(vertex, p), adapt of the grid and adapt(handle) of the interface grid with the handle of a piecewise constant function, the elements that were there have their values; the added element has the value of the interface element at the vertex that it continues if that one is longer, and otherwise that value times the length of the projection of the old element to the new one divided by the length of the new one.

* modules: `InterfaceTransfer`
* proved: `C199_unchanged`, `C199_shorter`, `C199_longer`
* note: One request of addToInterface in the middle of a bulk element; the component is the copy of an interface element at the vertex, as addToInterface chooses it.

### C200 An element added to the interface gets the value of the element it continues, whatever its length (partial)

In 2D, after addToInterface(vertex, p), adapt of the grid and adapt(handle) of the interface grid with the handle of a piecewise constant function, the added element has the value of the interface element at the vertex that it continues.

* modules: `InterfaceTransfer`
* proved: 
* refuted: `C200_value_false`
* note: Refuted: an element of length 4 that continues an element of length 2 in the same direction gets half of its value (C200_value_false): adapt(handle) restricts with the old element as if it were a part of the new one. What holds is C199.

### C201 Any number of refinements and movements in three dimensions (proved)

In 3D, starting from a conforming mesh whose elements have positive volume and occur once, after any number of calls of adapt() (requests as in C187) and of movements of the interface or of all vertices by shifts that are zero on the boundary and for which ensureInterfaceMovement or ensureVertexMovement did not throw: the grid is again such a mesh, it covers the same domain with the same total volume, and no vertex is lost.

* modules: `MoveGeo`
* proved: `C201_space`
* note: Induction over histories with C187 and C191. Removals do not occur in three dimensions.

### C202 The sides of the interface are the parts of the domain it separates (proved)

Going from element to element through intersections for which isInterface is false reaches exactly the elements that lie in the same part of the domain without the interface: two elements are connected in this way if and only if their interiors can be joined inside the domain without touching the interface. Hence two conforming grids of the same domain whose interfaces consist of the same points have the same sides: the regions they fill coincide and their number is equal, however the two grids are meshed.

* modules: `Sides`
* proved: `C202_connected`, `C202_same`, `C202_regions`, `C202_number`
* note: Any dimension, over the real numbers. Elements are given by the ids of their vertices; the interface by a predicate on facets.

### C203 Adaptation and movement keep the sides of the interface (proved)

In two dimensions, after any sequence of insertions of vertices into edges (of the interface or not) and elements and of removals of inner vertices (on the interface: vertices with two interface elements in a straight line), two points are on the same side of the interface if and only if they were before, and the sides fill the same regions. If the grid is also moved in between (all areas positive, boundary fixed), the number of sides is unchanged.

* modules: `Sides`
* proved: `C203_adapt`, `C203_regions`, `C203_number`
* note: Two dimensions (interface operations in 3D are undefined, C26; no removal in 3D). Mesh and interface are one state; that the edges of the triangulation behave as InterfaceOps assumes is derived from the elements. What CGAL does to fill a hole is assumed as in C57 (Fills).

### C204 Removing an interface vertex does not join two sides (partial)

After removing a vertex of the interface that belongs to exactly two interface elements, elements that were on different sides of the interface are still on different sides.

* modules: `Sides`
* proved: 
* refuted: `C204_false`
* note: Refuted: if the interface is the boundary of a triangle, removing one of its corners leaves a single interface element, and the two sides become one (C204_false). If the two interface elements form a straight line, nothing changes (C203).

### C205 Functions created at run time belong to the types of their arguments (proved)

skeleton(f, grid), trace(u, igrid), interfaceIndicator(igrid, grid) and monolithicSolve work with the C++ class for the types of the given grids, functions and schemes (trace: with the inner side for '+' and the outer side for '-'), whatever was created before in the same process, provided no two of the texts from which module names are computed have the same hash.

* modules: `Generated`
* proved: `C205_skeleton`, `C205_trace`, `C205_indicator`, `C205_jacobian`, `C205_header`

### C206 The argument iterative chooses the backend (partial)

monolithicSolve(iterative=True) uses the iterative parallel implementation of the Jacobian and monolithicSolve(iterative=False) the direct one.

* modules: `Generated`
* proved: `C206_earlier_flag`, `C206_iterative_partial`
* refuted: `C206_iterative_false`
* note: Refuted: the name of the generated module is computed from the types only and not from the header, so after monolithicSolve(iterative=True) a call with the same types and iterative=False works with the iterative implementation, and the other way round (C206_iterative_false, C206_earlier_flag). True if all earlier calls with these types gave the same flag (C206_iterative_partial).

### C207 A callback that communicates (partial)

If all processes call monolithicSolve(iterative=True), they call the callback equally often between the operations that involve all processes, so that the callback may communicate.

* modules: `Jacobian`
* proved: `C207_count`, `C207_collective_partial`
* refuted: `C207_collective_false`
* note: Refuted: while the Jacobian is assembled the callback is called twice for each degree of freedom at the interface elements of the process and of the elements next to them; a process without a part of the interface does not call it at all (C207_collective_false, C207_count). The sequences of operations agree if and only if these numbers agree (C207_collective_partial).

### C208 Adding a facet to the interface splits at most one side (proved)

addInterface(intersection) never joins sides of the interface: elements that can be reached from each other without crossing the interface after the call could be before. Sides that contain neither of the two elements at the facet are unchanged. The number of sides stays or grows by one; it grows by one exactly if the facet was not in the interface, lies between two elements, and after the call one of them cannot be reached from the other. A facet on the boundary separates nothing. Along any sequence of adaptations, movements and addInterface the number of sides does not decrease.

* modules: `Sides`
* proved: `C208_finer`, `C208_parts`, `C208_sides`, `C208_unchanged`, `C208_number`, `C208_boundary`, `C208_addInterface`, `C208_history`
* note: Combinatorial part for every dimension (C208_finer, C208_parts, C208_sides, C208_number, C208_boundary); C208_addInterface and C208_history for the 2D grid with its list of interface segments. History steps as in C203: vertices of the interface are removed only if they lie on a straight line (see C204).

### C209 Interface and its sides in three dimensions (proved)

In 3D isInterface(edge) is true exactly for the edges of interface facets. Hence refinement of marked elements (globalRefine), refineEdge for other edges and insertion of vertices inside elements leave the interface as it is: the same facets at the same place, whose sides are the same parts of the domain. Together with movements and addInterface, in any number and order, interface segments stay facets of the mesh and the number of sides does not decrease; it stays the same if nothing is added to the interface, and addInterface adds at most one.

* modules: `Sides`
* proved: `C209_adapt`, `C209_isInterface`, `C209_addInterface`, `C209_history`, `C209_number`, `C209_global`
* note: Requests for edges of the interface are excluded: there the code reads outside of a vector in 3D (C26_undefined_3d). C209_adapt holds in every dimension.

### C210 Which elements are new and which might vanish after adapt() (proved)

In 2D: after adapt() and before postAdapt(), isNew() is true exactly for the elements that the mesh did not contain before; adapt() flags with mightVanish() exactly the elements at which something was asked for (an edge to be split, a vertex to be removed, a point to be inserted), and every element that is gone afterwards is among them. An element at which nothing was asked for stays and is not new.

* modules: `Conserve`
* proved: `C210_isNew`, `C210_flag`, `C210_gone`, `C210_stays`
* note: Under the conditions of C195 (a triangulation, valid requests, no marks from before). 3D not covered.

### C211 mightVanish() announces before adapt() which elements vanish (partial)

An element for which mightVanish() is false when adapt() is called is still present afterwards, as the DUNE grid interface guarantees.

* modules: `Conserve`
* proved: 
* refuted: `C211_before_false`
* note: Refuted: the flags are set inside adapt() only, so before adapt() no element is flagged while elements do vanish (C211_before_false). What holds of the flags after the marking is C210.

### C212 Elements of the leaf grid view are leaves (partial)

isLeaf() is true for every element that an iteration over the leaf grid view gives. Between adapt() and postAdapt() this holds exactly for the elements that were there before.

* modules: `Conserve`
* proved: `C212_isLeaf`
* refuted: `C212_view_false`
* note: Refuted: new elements are leaf elements of the view for which isLeaf() is false until postAdapt(); in the example all of them (C212_view_false). C212_isLeaf says for which elements it holds.

### C213 Movement of the mesh on several processes (proved)

Any number of calls of moveVertices and moveInterface, where all processes pass the same displacement for the same vertex, never leave the vectors that are passed. After calls of moveVertices, every vertex of every element that a process has (its own elements and its ghosts) is where it is in a serial run, hence two processes that have an element see it at the same place. After calls of both, the same holds for the vertices of the interface elements that a process has and for the vertices that are not on the interface.

* modules: `MoveParallel`
* proved: `C213_moveVertices`, `C213_agree`, `C213_interface`, `C213_off`

### C214 moveInterface moves the interface vertices on all processes (partial)

After moveInterface, with the same displacements on all processes, all processes that have an element see its vertices at the same place.

* modules: `MoveParallel`
* proved: `C214_stays_partial`
* refuted: `C214_moveInterface_false`
* note: Refuted: C214_moveInterface_false gives a square of four triangles with the tip of the interface in its centre; the process that owns the two triangles away from the interface has the tip as a border vertex but does not move it, so the two processes see its elements at different places. What holds: C214_stays_partial (an interface vertex moves exactly on the processes that have one of its interface elements) and C213.

### C215 Distance function in 3D (proved)

In 3D the value stored for an interior vertex is at least its distance to the interface elements of the process (if this is at most 10^50), exceeds it by at most 0.29 times the length of the longest edge of the nearest interface element, and is zero exactly for the vertices on the interface.

* modules: `Distance`
* proved: `C215_above`, `C215_error`, `C215_zero`

### C216 The distance function is exact in 3D (partial)

In 3D the value stored for an interior vertex is its distance to the interface.

* modules: `Distance`
* proved: 
* refuted: `C216_exact_false`
* note: Refuted: C216_exact_false (only the corners, the midpoints of the edges and the centre of an interface element are looked at; for a vertex above another point of the element the value is too large). The code calls it an estimate. What holds is C215.

### C217 Coupling of bulk and interface functions on several processes (proved)

A process has the elements on both sides of each interface element it owns, and the interface elements on the facets of each element it owns, so traces and skeleton functions can be evaluated there. With an array that has one row for each vertex of the interface grid of the process, interfaceEdgeMovement takes at each interface element of the process the rows of its vertices, different vertices have different rows, and edgeMovement takes the same rows at the corners of an element whose interface vertices belong to the interface grid of the process, and zero at the corners that are not on the interface.

* modules: `MoveParallel`
* proved: `C217_traces`, `C217_ghost_traces`, `C217_skeleton`, `C217_movement`

### C218 edgeMovement works on every process (partial)

On each process, edgeMovement(grid, shifts) has a value on each element that the process owns, if shifts has one row for each vertex of the interface grid of the process.

* modules: `MoveParallel`
* proved: `C218_exception_partial`
* refuted: `C218_edgeMovement_false`
* note: Refuted: at a tip of the interface on the boundary of a partition, the process without interface elements evaluates the index of the interface vertex and gets an InvalidStateException (C218_edgeMovement_false). C218_exception_partial: this happens on every element with an interface vertex that is not in the interface grid of the process; otherwise C217_movement holds.

### C219 Displacements from lists and contiguous arrays (proved)

edgeMovement(grid, shifts) and interfaceEdgeMovement(igrid, shifts) use as displacement number i the i-th vector of a list, or the i-th row of a contiguous array with one column for each coordinate. At a corner on the interface, edgeMovement has the entries of the row of this vertex, at the other corners it is zero.

* modules: `Trace`
* proved: `C219_rows`, `C219_list`, `C219_edgeMovement`

### C220 Displacements from arbitrary arrays (partial)

edgeMovement and interfaceEdgeMovement use the rows of every numpy array of doubles with one column for each coordinate, also if it is a transposed array or a part of another array.

* modules: `Trace`
* proved: `C220_place_partial`
* refuted: `C220_arrays_false`, `C220_views_false`
* note: Refuted: the entries are read at dim*i+d after the first one, whatever the strides are. A transposed array is used with rows and columns exchanged (C220_arrays_false), a slice of columns gives wrong rows and shifts[::-1] is read outside of its memory (C220_views_false). C220_place_partial says what is read in general; contiguous arrays are C219.

### C221 Repeated refinement in 3D ends (proved)

Repeating markElements() and adapt() in 3D, as long as markElements() returns true, with an indicator that permits the same maximal edge length everywhere (factor 1), ends if every requested edge is still found, and then no edge of the grid is longer than the permitted maximum. If it does not end, then from some repetition on, adapt() drops the request for a longest edge of the grid every time.

* modules: `Refine`
* proved: `C221_marked`, `C221_drops`, `C221_ends`, `C221_reaches`
* note: Model: the marks of all elements and interface elements, the requests for their longest edges, and the insertion loop in which each request is carried out or dropped. A request counts as dropped if its edge is not found by its stored handle (mmesh.hh:1234-1243); C183 deals with requests that are carried out for a wrong edge. The limit must be the same everywhere: with distance dependent limits the longest edge of the grid may be permitted. Proof: halving an edge longer than H creates edges whose squared lengths are at most the largest one minus H²/4.

### C222 Marked elements lead to changes (partial)

If markElements() returns true, adapt() has an edge to refine or a vertex to remove, so that repeating both until markElements() returns false makes progress every time.

* modules: `Refine`
* proved: `C222_work_partial`
* refuted: `C222_progress_false`
* note: Refuted: an interface of one element of length 300 is marked for coarsening (radius ratio of interface elements depends on the unit, C119), but none of its vertices is removable, so that nothing happens and markElements() returns true forever. Holds if interface elements marked for coarsening have a vertex with two interface elements.

### C223 Sizes of the index sets by geometry type (proved)

For every geometry type of the grid, indexSet.size(type) is the number of simplices of this type in the grid, each counted once however many elements share it; types(codim) is the type of the simplices of dimension dim - codim, and the size of types that are not simplices is zero. This holds for the bulk grid in 2D and 3D and for the interface grid.

* modules: `IndexSet`
* proved: `C223_plane`, `C223_space`, `C223_interface`, `C223_types`, `C223_other`
* note: The number of simplices is the number of sets of k+1 vertices that are contained in an element. As in C05 and C22, that the iterations of the grid visit every entity once is a hypothesis (C19, C159), and every vertex belongs to an element.

### C224 Sizes of types of higher dimension, copies of the index set (partial)

indexSet.size(type) is zero for types of simplices of a higher dimension than the grid, and a copy of an index set returns the same indices.

* modules: `IndexSet`
* proved: `C224_copy_partial`
* refuted: `C224_tetrahedra_false`, `C224_triangles_false`, `C224_copy_false`
* note: Refuted: size(tetrahedron) of a 2D grid and size(triangle) of the interface of a 2D grid read sizeOfCodim_[-1] (an assertion in debug builds). A copy of the bulk index set has no indices of facets and edges, so that index() throws; sizes and the indices of elements and vertices are kept.

### C225 Refinement keeps the Euler number (proved)

Refinement of edges and insertion of vertices add one vertex per request carried out and one element for every element at a refined edge, and the number of vertices minus edges plus triangles (minus tetrahedra) reported by the grid does not change, in 2D and 3D, nor does it for the interface.

* modules: `Refine`
* proved: `C225_insert`, `C225_vertices`, `C225_elements`, `C225_adapt`, `C225_requests`, `C225_edges`
* note: All steps of the insertion loop of C187, in every dimension: edges, points inside an element, points outside of the grid, dropped requests. The counts are those of C223. Removal of vertices is not covered.

### C226 Refinement on several processes agrees with a serial run on own elements in 2D (proved)

In a 2D grid on several processes, when the same elements are marked for refinement on all processes that have them, adapt() divides the interior elements of every process exactly as a serial run does, and the pieces of the interior elements of all processes together are the elements of the refined serial grid. In any dimension this holds for every element such that all elements at its edges are present on the process.

* modules: `AdaptParallel`
* proved: `C226_element`, `C226_possible`, `C226_plane`, `C226_grid`
* note: Bulk refinement of marked elements by the longest edge. Hypotheses: a process has at least its interior elements and their neighbours across facets, marks agree on common elements, no request is dropped (C188 and C222 describe when requests are dropped), no coarsening and no interface requests. C226_possible shows that runs with these properties exist for all marks; C226_grid is the statement about the whole grid.

### C227 Grids of several processes after adapt() (partial)

After adapt() on several processes, a ghost element is a copy of the elements on its owner, the interior elements of all processes make up the grid, a vertex id stands for the same vertex on all processes, and in 3D interior elements are divided as in a serial run.

* modules: `AdaptParallel`
* proved: 
* refuted: `C227_ghost_false`, `C227_owners_false`, `C227_ids_false`, `C227_space_false`
* note: Refuted: requests are not communicated. C227_ghost_false: an element is halved on its owner because of a neighbour that the other process does not have; C227_owners_false: every process distributes its own, different triangulation anew, and the interior elements do not add up; C227_ids_false: two different new vertices get the same id; C227_space_false: in 3D an edge of an own element may be divided because of an element that is not present. What does hold is C226.

### C228 Loops over the intersections of an element (proved)

A loop over the intersections of an element ends and visits every facet at most once. For elements that are not ghosts it visits all dim + 1 facets, and indexInInside() takes each value once. On several processes a facet of an element of the process is visited exactly if one of its sides is interior (at the boundary: if the element is), the element outside of a visited intersection always belongs to the grid of the process, and an intersection visited from one side is visited from the other side.

* modules: `IntersectionIter`
* proved: `C228_iterate`, `C228_numbers`, `C228_visible`, `C228_outside`, `C228_symmetric`
* note: The facets are visited in descending order of the slots of CGAL, which is not the order of indexInInside(). A ghost that was added because of the interface may have no intersections at all (example beside C228_symmetric). C228_visible, C228_outside and C228_symmetric use the partitions of C35.

### C229 Finite volume sums over the intersections are conservative (proved)

When a scheme adds, for all interior elements and all their intersections, a numerical flux that changes its sign with the side (depending on integrationOuterNormal() and the values inside and outside), the sum over all elements of all processes is the sum of the fluxes at the boundary of the domain: every facet between two elements is met exactly once from each side, also across processes, with opposite normals. For a constant state and a consistent flux the sum over the intersections of an element away from the boundary is zero.

* modules: `IntersectionIter`
* proved: `C229_sum`, `C229_conservative_2d`, `C229_conservative_3d`, `C229_constant_2d`, `C229_constant_3d`
* note: Hypotheses on the grid (Mates, Fits2, Fits3): neighbours are mutual, have one facet in common and lie on different sides of it, elements are positively oriented; these are what C13, C14 and C187 give. C229_sum is the statement for any flux, the others use the normals of the model (C10).

### C230 Finite volume sums over interface intersections are conservative (proved)

When a scheme adds, for all interior interface elements and all their intersections, a flux from the inside to the outside that changes its sign with the direction, the sum over all elements of all processes is the sum of the fluxes at the ends of the interface, also where three or more elements meet at a vertex or edge (each pair of them is met exactly once in each direction). A finite volume step therefore changes the integral of a piecewise constant interface function only by the fluxes at the ends of the interface.

* modules: `InterfaceIndexSet`
* proved: `C230_sum`, `C230_mass`, `C230_possible`
* note: C230_sum for every antisymmetric flux and every distribution, C230_mass for a finite volume step, C230_possible shows that the hypotheses on a process are always met. Fluxes depend on the vertex sets of the two elements; the normals of the interface intersections are not used (at a junction they are not opposite).

### C231 Same settings of the indicator on all processes (proved)

If minH() and maxH() of the default indicator are set to the same values and factor() to 1 on all processes, markElements() gives an element the same mark on every process where it is present, and the same as in a serial run, however the grid is distributed. In 2D adapt() then refines every element on its own process as in a serial run, provided no element is to be coarsened.

* modules: `Indicator`
* proved: `C231_agree`, `C231_border`, `C231_refine`
* note: C231_agree, C231_refine (with C226); C231_border shows that the required positive largest distance is given on every process with a border vertex. In the model a division by a largest distance of zero would give zero, in the code NaN: excluded by hypothesis.

### C232 Default indicator on several processes (partial)

With the settings made when the grid is constructed, markElements() decides about each element on its own process as in a serial run, the marks of ghosts are those of their owners, the result is the same on all processes, and elements further from the interface than distProportion times the largest distance get the edge lengths from factor * minH to factor * maxH.

* modules: `Indicator`
* proved: 
* refuted: `C232_serial_false`, `C232_ghost_false`, `C232_return_false`, `C232_far_false`
* note: Refuted: C232_serial_false, C232_ghost_false and C232_return_false for a fan of four triangles on two processes without interface (thresholds come from the edges present on the process), C232_far_false because vertices at the border of a process keep the value 1e100, which is then the largest distance. The true part is C231.

### C233 Old elements and repeated questions for ids (proved)

An element stored in a component during an adaptation has for ever the id and the corners of the leaf element it was made from, whatever happens to the grid. An element or facet object that was asked for its id gives the same answer ever after, and the question changes neither comparisons nor the geometry.

* modules: `Entity`
* proved: `C233_old`, `C233_again`, `C233_facet_again`
* note: The corners are those at the time of the construction. Copies and assignments of facets do not keep this, see C143.

