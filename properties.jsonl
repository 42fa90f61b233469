{"id": "C01", "title": "Entity ids: equality and order", "statement": "Two ids compare equal exactly when they were built from the same sequence of vertex numbers; '<' on ids is a strict total order compatible with '==' and '<=' (irreflexive, asymmetric, transitive, and exactly one of a<b, a==b, b<a holds), so ids can be used as keys of ordered containers.", "quantifier": "all ids built from at most four vertex numbers, all pairs and triples of them", "why_tests_cant": "the order is over unboundedly many ids; a test compares a handful of pairs and cannot establish transitivity or totality", "anchors": ["dune/mmesh/grid/multiid.hh: MultiId::operator<, operator==, operator<=, vt"]}
{"id": "C02", "title": "Entity ids: hash agrees with equality under caching", "statement": "Equal ids return equal hash values, whatever copies, assignments and earlier hash() calls happened to either of them, so an id stored in an unordered container is always found again by an equal id.", "quantifier": "all ids and all histories of construction, copy, assignment and hash calls", "why_tests_cant": "the cached value depends on the call history; tests exercise only a few histories and values (including the sentinel value) cannot be enumerated", "anchors": ["dune/mmesh/grid/multiid.hh: MultiId::hash, copy constructor, operator="]}
{"id": "C03", "title": "Vertex ids are persistent, unique and never reused", "statement": "During the whole life of a grid no two living vertices share an id, the id of a vertex never changes while it lives, and the id of a removed vertex is never given to another vertex, for any interleaving of vertex creation (with or without a factory-assigned number), removal and id updates.", "quantifier": "all histories of grid construction, vertex insertion, vertex removal and adaptation steps", "why_tests_cant": "a statement about unbounded adaptation histories; tests run a few cycles", "anchors": ["dune/mmesh/grid/indexsets.hh: MMeshGlobalIdSet::init, update, setNextId", "dune/mmesh/grid/explicitgridfactory.hh: insertVertex"]}
{"id": "C04", "title": "Sub-entity ids agree with entity ids", "statement": "For every element and every local number i, the id reported for sub-entity i of the element equals the id of the sub-entity object obtained from the element, and it does not depend on the element through which the sub-entity is reached; two sub-entities of the same codimension have the same id exactly when they have the same vertices.", "quantifier": "all elements (2D and 3D) with pairwise distinct vertex ids in any stored vertex order, all local numbers and codimensions", "why_tests_cant": "depends on the relative order of unbounded vertex ids in each element, with a separate formula per dimension and codimension", "anchors": ["dune/mmesh/grid/indexsets.hh: MMeshGlobalIdSet::subId", "dune/mmesh/grid/entity.hh: id, subEntity"]}
{"id": "C05", "title": "Bulk leaf indices are consecutive, zero-based and unique", "statement": "After an index update, the indices of the leaf entities of each codimension are exactly 0,...,size(codim)-1 without repetition, and a facet (or edge) shared by several elements has one index.", "quantifier": "all triangulations (2D and 3D), any number of elements and any iteration order", "why_tests_cant": "for every mesh; tests check a few meshes", "anchors": ["dune/mmesh/grid/indexsets.hh: MMeshLeafIndexSet::update, index, size"]}
{"id": "C06", "title": "Sub-entity indices agree with entity indices", "statement": "subIndex(element, i, codim) equals index of the i-th sub-entity of that codimension for every element and i.", "quantifier": "all elements of all triangulations, all i and codim", "why_tests_cant": "depends on vertex id orderings within every element", "anchors": ["dune/mmesh/grid/indexsets.hh: MMeshLeafIndexSet::subIndex", "dune/mmesh/grid/common.hh: cgalFacetToDuneFacet, duneFacetToCgalSecond, cgalEdgeToDuneEdge"]}
{"id": "C07", "title": "Facet numbering conversions are inverse to each other", "statement": "Converting a DUNE facet number to the opposite-vertex number of the host triangulation and back yields the same number, in both directions, for every order of the vertex ids; the facet with number i has exactly the vertices the reference simplex assigns to facet i.", "quantifier": "all vertex orderings of an element, dimension 2 and 3", "why_tests_cant": "tests only see orderings produced by the test meshes; the arithmetic uses sums of indices", "anchors": ["dune/mmesh/grid/common.hh: computeCGALIndices, duneFacetToCgalSecond, cgalFacetToDuneFacet"]}
{"id": "C08", "title": "Edge numbering in 3D matches the reference tetrahedron", "statement": "The DUNE number computed for an edge of a tetrahedron does not depend on the order in which its two end points are given, is different for different edges, and is the reference-element number of the edge joining those two vertices.", "quantifier": "all vertex orderings of a tetrahedron and all pairs of distinct vertices", "why_tests_cant": "all orderings; formula with special case", "anchors": ["dune/mmesh/grid/common.hh: cgalEdgeToDuneEdge", "dune/mmesh/grid/entity.hh: subEntity<2>"]}
{"id": "C09", "title": "Intersection geometries conform", "statement": "For every intersection the physical point obtained by mapping a local coordinate with geometry() equals the point obtained through geometryInInside() followed by the geometry of the inside element, and through geometryInOutside() followed by that of the outside element; the interface entity lying on the intersection has the same parametrisation.", "quantifier": "all pairs of neighbouring elements with any stored vertex orders and any distinct vertex ids, all local coordinates, 2D and 3D", "why_tests_cant": "depends on the relative vertex order of both neighbours; all combinations for all meshes", "anchors": ["dune/mmesh/grid/geometry.hh", "dune/mmesh/grid/intersections.hh: geometryInInside, geometryInOutside", "dune/mmesh/interface/geometry.hh", "dune/python/mmesh/pyskeletontrace.hh: SkeletonGF, TraceGF"]}
{"id": "C10", "title": "Outer normals of bulk intersections", "statement": "For every positively oriented element, integrationOuterNormal of each intersection is perpendicular to the intersection, points away from the element, has the length of the intersection's integration element, and the integration outer normals of an element add up to zero; the normals seen from the two sides of an intersection are opposite.", "quantifier": "all positively oriented simplices with arbitrary coordinates, 2D and 3D", "why_tests_cant": "universally quantified over coordinates", "anchors": ["dune/mmesh/grid/intersections.hh: integrationOuterNormal"]}
{"id": "C11", "title": "Outer normals of interface intersections in 3D", "statement": "The outer normal of an edge of an interface triangle lies in the plane of the triangle, is perpendicular to the edge and points away from the triangle; unitOuterNormal has length one. On the interface of a 2D grid the outer normal is the unit vector along the segment, away from it.", "quantifier": "all non-degenerate triangles in space", "why_tests_cant": "universally quantified over coordinates", "anchors": ["dune/mmesh/interface/intersections.hh: integrationOuterNormal"]}
{"id": "C12", "title": "Number of sub-entities", "statement": "subEntities(cc) of an element of the bulk grid, of an element kept during adaptation and of an interface element, and of bulk entities of any codimension, returns the number of sub-entities of codimension cc, i.e. the binomial count of a simplex.", "quantifier": "all dimensions, codimensions and cc", "why_tests_cant": "simple arithmetic but a separate implementation per entity class; tests call it for codimension 0 only", "anchors": ["dune/mmesh/grid/entity.hh: subEntities", "dune/mmesh/grid/cachingentity.hh: subEntities", "dune/mmesh/interface/entity.hh: subEntities"]}
{"id": "C13", "title": "Explicit factory builds correct connectivity", "statement": "For every list of elements in which each facet belongs to at most two elements, in whatever order they were inserted, the created grid has: two elements are neighbours through a facet exactly when both contain it, neighbourship is symmetric, and a facet contained in one element only is a boundary facet whose outer neighbour is one infinite element.", "quantifier": "all conforming element lists and insertion orders", "why_tests_cant": "all input meshes and orders", "anchors": ["dune/mmesh/grid/explicitgridfactory.hh: createElement, addFacetToMap, createInfiniteCells"]}
{"id": "C14", "title": "Explicit factory orients elements positively", "statement": "In 2D every element of a created grid is positively oriented, whatever vertex order the caller used.", "quantifier": "all element coordinates and vertex orders", "why_tests_cant": "all coordinates", "anchors": ["dune/mmesh/grid/explicitgridfactory.hh: createElement"]}
{"id": "C15", "title": "Boundary segment indices", "statement": "Inserting the same boundary segment twice is rejected; the inserted segments are numbered in the order of insertion, and in the created grid different boundary segments have different values of boundarySegmentIndex.", "quantifier": "all sequences of insertBoundarySegment/insertInterface calls followed by createGrid", "why_tests_cant": "all call sequences", "anchors": ["dune/mmesh/grid/explicitgridfactory.hh: insertBoundarySegment, createGrid, createInfiniteCells", "dune/mmesh/grid/intersections.hh: boundarySegmentIndex"]}
{"id": "C16", "title": "Interface and boundary segments are separated on creation", "statement": "After createGrid no facet is both a boundary segment and an interface segment; a facet inserted as both is a boundary segment if it lies on the domain boundary and an interface segment otherwise, and the vertices of all interface segments (and only those) are interface vertices.", "quantifier": "all sequences of factory calls", "why_tests_cant": "all call sequences", "anchors": ["dune/mmesh/grid/explicitgridfactory.hh: createGrid, createInfiniteCells, insertInterface"]}
{"id": "C17", "title": "Interface boundary segment insertion rejects duplicates", "statement": "insertInterfaceBoundarySegment rejects a segment that was inserted before, like insertBoundarySegment does, and numbers the accepted segments consecutively.", "quantifier": "all sequences of calls", "why_tests_cant": "all call sequences", "anchors": ["dune/mmesh/grid/explicitgridfactory.hh: insertInterfaceBoundarySegment"]}
{"id": "C18", "title": "Gmsh reader: element lines", "statement": "For every element line of a well-formed msh file the reader hands to the factory exactly the corner vertices named on the line (shifted to zero-based numbers) with the last tag as domain marker, and the whole file gives exactly the expected calls. If the nodes are numbered 1, 2, ... in the order of their lines, a corner is at the position given for its number. Conversely, a file that is read without an exception has a section of nodes and one of elements, each with an end mark and starting with the number of its lines; the first calls insert one vertex per node line at the position given there, and every word of an element line is a number.", "quantifier": "all element lines (lists of integers)", "why_tests_cant": "all file contents, including malformed ones", "anchors": ["dune/mmesh/grid/gmshgridfactory.hh: GmshGridFactory::generate"]}
{"id": "C19", "title": "Iteration over interface elements visits each once", "statement": "In a grid created by the factory, iterating over the elements of the interface grid visits each interface segment inside the domain exactly once, whichever of the two adjacent bulk elements is stored first; nothing but interface segments is visited. In any grid the number of visits is determined by the insertion numbers of the adjacent elements.", "quantifier": "all triangulations, interfaces and insertion numbers of bulk elements", "why_tests_cant": "all meshes and adaptation histories", "anchors": ["dune/mmesh/interface/leafiterator.hh: proceed", "dune/mmesh/interface/entity.hh: constructor"]}
{"id": "C20", "title": "Iteration over interface vertices visits each once", "statement": "interfaceVertices(gridView) visits every vertex of every interface segment exactly once and no other vertex.", "quantifier": "all interfaces", "why_tests_cant": "all meshes", "anchors": ["dune/mmesh/grid/interfaceiterator.hh: MMeshInterfaceVertexIteratorImp"]}
{"id": "C21", "title": "Interface intersections enumerate all neighbours", "statement": "Iterating over the intersections of an interface element yields, for each of its facets, one intersection per other interface element containing that facet (also at junctions with any number of branches), each with a different outside element, and exactly one boundary intersection for a facet contained in no other interface element.", "quantifier": "all interface networks with arbitrary junctions, 2D and 3D", "why_tests_cant": "junction degree and orders are unbounded", "anchors": ["dune/mmesh/interface/intersections.hh: outside, numOutside, boundary", "dune/mmesh/interface/intersectioniterator.hh: increment", "dune/mmesh/interface/indexsets.hh: update"]}
{"id": "C22", "title": "Interface leaf indices are consecutive, zero-based and unique", "statement": "After an index update over pairwise different interface elements their indices and those of edges (3D) and vertices are exactly 0,...,size-1 without repetition, independent of the order in which vertices are stored.", "quantifier": "all interfaces in all triangulations", "why_tests_cant": "all meshes", "anchors": ["dune/mmesh/interface/indexsets.hh: update, index, size"]}
{"id": "C23", "title": "Marks: the last mark of an element counts", "statement": "For the bulk grid, after mark(r, e), getMark(e) returns r until the next mark of e or postAdapt, and getMark of other elements is unchanged; on a grid without interface marks markElements marks each element as the indicator says and tells if any mark was set.", "quantifier": "all sequences of mark calls and values", "why_tests_cant": "all call sequences", "anchors": ["dune/mmesh/grid/mmesh.hh: mark, getMark", "dune/mmesh/interface/grid.hh: mark, getMark"]}
{"id": "C24", "title": "Conflict components: overlapping zones share one component", "statement": "When adapt groups the requested insertions and removals into components, the marking terminates; if the elements of the conflict zones carry no number from before, two requests carry the same component number exactly when they are linked by a chain of requests with overlapping conflict zones. After postAdapt no leaf element carries a number.", "quantifier": "all sets and orders of requests with arbitrary conflict zones", "why_tests_cant": "fixpoint iteration over arbitrary overlap graphs; termination", "anchors": ["dune/mmesh/grid/mmesh.hh: adapt_, markElementsForInsertion_, markElementsForRemoval_, getComponentNumber_"]}
{"id": "C25", "title": "Connected component contains exactly the connected old elements", "statement": "A connected component built from an element contains that element and exactly those elements that can be reached from it by facet neighbours that are old and carry the same component number, each exactly once; building it terminates.", "quantifier": "all neighbour graphs and component numberings", "why_tests_cant": "recursion over arbitrary graphs", "anchors": ["dune/mmesh/grid/connectedcomponent.hh: MMeshConnectedComponent, insertNeighbors_, update"]}
{"id": "C26", "title": "Refining an interface segment", "statement": "Splitting an interface segment replaces it by the two segments joining its end points with the new vertex, both with the old domain marker, makes the new vertex an interface vertex, and leaves all other segments and markers unchanged.", "quantifier": "all interfaces and all refinement sequences in 2D", "why_tests_cant": "all interfaces and histories", "anchors": ["dune/mmesh/grid/mmesh.hh: insertInInterface_"]}
{"id": "C27", "title": "Removing an interface vertex", "statement": "Removing an interface vertex with exactly two incident segments replaces these by the segment joining the two other end points, keeping the interface connected and everything else of the interface unchanged, provided no element at the vertex was created by an earlier request of the same call of adapt().", "quantifier": "all interfaces", "why_tests_cant": "all interfaces", "anchors": ["dune/mmesh/grid/mmesh.hh: removeFromInterface_"]}
{"id": "C28", "title": "Return value of adapt()", "statement": "adapt() returns true exactly if a request to insert a vertex did not end with an error message, and the triangulation was changed exactly if a request inserted a vertex or removed one. In particular, if every request to insert succeeds and vertices are not only removed, adapt() returns true exactly if the triangulation was changed.", "quantifier": "all sets of insertion and removal requests, including stale edges", "why_tests_cant": "all request sets", "anchors": ["dune/mmesh/grid/mmesh.hh: adapt, adapt_"]}
{"id": "C29", "title": "Requests are processed at most once and cleared", "statement": "However often an edge is requested or marked, it is queued at most once (unless a crossing was found for it), no edge is split twice in one adapt(), a vertex is queued for removal at most once; every request and mark is queued.", "quantifier": "all sequences of refineEdge, removeVertex, mark, adapt, postAdapt", "why_tests_cant": "all call sequences", "anchors": ["dune/mmesh/grid/mmesh.hh: refineEdge, removeVertex, adapt, postAdapt"]}
{"id": "C30", "title": "Interface segments stay facets with interface vertices", "statement": "At every time each interface segment has pairwise distinct vertices which are all flagged as interface vertices, whatever sequence of addInterface, segment refinement, vertex insertion, vertex removal, extension and interface crossing was executed.", "quantifier": "all histories of interface operations (executions without the undefined reads of C164)", "why_tests_cant": "unbounded histories", "anchors": ["dune/mmesh/grid/mmesh.hh: addInterface, insertInInterface_, removeFromInterface_, adapt_"]}
{"id": "C31", "title": "ensureInterfaceMovement does not move the mesh", "statement": "After ensureInterfaceMovement(shifts) has returned, every vertex is at the position it had before the call; if a cell is not positive before the call, the call throws and nothing is changed.", "quantifier": "all meshes, shifts and control flow paths", "why_tests_cant": "all paths incl. exceptions and the special treatment of crossing interfaces", "anchors": ["dune/mmesh/grid/mmesh.hh: ensureInterfaceMovement"]}
{"id": "C32", "title": "ensureVertexMovement returning false means the movement is safe", "statement": "In 2D ensureVertexMovement(shifts) returns with positions unchanged; it returns false exactly if every vertex of a cell that would get a non-positive volume is on the interface, a corner, or was queued before, and it queues exactly the other ones. In 3D it throws exactly if some cell would get a non-positive volume.", "quantifier": "all meshes and shifts", "why_tests_cant": "all meshes and shifts", "anchors": ["dune/mmesh/grid/mmesh.hh: ensureVertexMovement"]}
{"id": "C33", "title": "Moving vertices", "statement": "moveVertices(shifts) (moveInterface(shifts)) translates each (interface) vertex by exactly the shift stored at its index, exactly once, and leaves every other vertex, all ids, indices and the connectivity unchanged.", "quantifier": "all meshes, index sets and shift vectors", "why_tests_cant": "all meshes", "anchors": ["dune/mmesh/grid/mmesh.hh: moveVertices, moveInterface"]}
{"id": "C34", "title": "Parallel: elements are distributed to ranks contiguously and completely", "statement": "With P processes and N elements each element is interior on exactly one process, the elements of a process are contiguous in iteration order, and iteration over interior elements visits exactly these, in 2D and in 3D. In 2D moreover loads differ by at most one, and every process gets at least one element if N>=P.", "quantifier": "all P and N", "why_tests_cant": "all P and N", "anchors": ["dune/mmesh/misc/partitionhelper.hh: setRanks", "dune/mmesh/grid/leafiterator.hh: MMeshLeafIteratorImp"]}
{"id": "C35", "title": "Parallel: ghost layer", "statement": "On each process an element is ghost exactly when it is not interior there and shares a facet with an interior element or is adjacent to an interface element that meets an interior interface element; the same for interface elements. All processes agree on the links, i.e. p lists q as neighbour exactly when q lists p.", "quantifier": "all meshes and distributions", "why_tests_cant": "all meshes and distributions", "anchors": ["dune/mmesh/misc/partitionhelper.hh: computePartitions, addConnectivity"]}
{"id": "C36", "title": "Parallel: bulk communication delivers data to the right entity", "statement": "In a communication of the bulk grid, in every schedule, what a process receives from a neighbour is exactly what that neighbour gathered for the same elements, in the same order, completely read, with matching sizes; no process waits for ever.", "quantifier": "all meshes, distributions, numbers of processes and data sizes", "why_tests_cant": "all meshes, process counts and data", "anchors": ["dune/mmesh/misc/communication.hh: PackData, UnpackData", "dune/mmesh/misc/partitionhelper.hh"]}
{"id": "C37", "title": "Parallel: interface communication delivers data to the right entity", "statement": "Where at most two processes own interface elements at each interface vertex, data gathered for an interface element on its owner reaches exactly that element on the processes where it is a ghost, from its owner only, in every round and under every schedule of the messages.", "quantifier": "all interfaces, distributions and process counts, including junctions", "why_tests_cant": "all interfaces and distributions", "anchors": ["dune/mmesh/misc/communication.hh", "dune/mmesh/misc/partitionhelper.hh: computeInterfacePartitions"]}
{"id": "C38", "title": "Object stream is first-in first-out", "statement": "For every sequence of writes and reads of values that keep each other aligned, with arbitrary sizes, an object stream returns the values in the order and with the contents they were written, earlier contents survive buffer growth, and with assertions enabled reading more than was written is detected.", "quantifier": "all sequences of write/read operations and sizes", "why_tests_cant": "all sequences; reallocation boundaries", "anchors": ["dune/mmesh/misc/objectstream.hh: write, read, reserve, reallocateBuffer"]}
{"id": "C39", "title": "Object stream buffers have one owner", "statement": "In every sequence of construction, copy, assignment, write, read and destruction in which no stream is used after it was copied from, no buffer is freed twice or used after it was freed, every buffer has one owner, and all are freed when all streams are gone.", "quantifier": "all sequences of construction, copy, assignment, write and destruction", "why_tests_cant": "all sequences", "anchors": ["dune/mmesh/misc/objectstream.hh: assign, copy constructor, destructor"]}
{"id": "C40", "title": "Polygon clipping stays inside", "statement": "Clipping a polygon against a convex counter-clockwise clip polygon yields only points inside the clip polygon (up to the tolerance) and inside the convex hull of the input, and returns the subject unchanged if it already lies inside.", "quantifier": "all polygons", "why_tests_cant": "all real coordinates and polygon sizes", "anchors": ["dune/mmesh/grid/polygoncutting.hh: sutherlandHodgman"]}
{"id": "C41", "title": "Polygon area", "statement": "polygonArea is the signed area: invariant under rotation of the vertex list and translation, negated by reversal, additive under cutting along a chord, and for convex polygons over the reals the Lebesgue measure of the hull. The volumes of the triangles of a cut set add up to the measure of the intersection, up to the tolerances of the clipping.", "quantifier": "all polygons", "why_tests_cant": "all polygon sizes and coordinates", "anchors": ["dune/mmesh/grid/polygoncutting.hh: polygonArea", "dune/mmesh/grid/cutsettriangulation.hh"]}
{"id": "C42", "title": "Line intersection point", "statement": "lineIntersectionPoint returns a point lying on both lines whenever the lines are not parallel.", "quantifier": "all quadruples of points", "why_tests_cant": "all coordinates", "anchors": ["dune/mmesh/grid/polygoncutting.hh: lineIntersectionPoint"]}
{"id": "C43", "title": "Distance function in 2D", "statement": "In 2D the distance computed for a point and an interface segment is the Euclidean distance to the segment; the value stored for an interior vertex is the minimum over the interface segments of the process, non-negative, and zero exactly on the interface; the value of an element is the average of those of its vertices.", "quantifier": "all points and interfaces in 2D", "why_tests_cant": "all coordinates and numbers of segments", "anchors": ["dune/mmesh/remeshing/distance.hh: computeDistance, handleFacet, update"]}
{"id": "C44", "title": "Ratio indicator decision", "statement": "In 2D the indicator returns -1 exactly if an edge is shorter than the permitted minimum, one edge is more than 4 times as long as another, or the radius of the circumcircle is more than 60 times the one of the incircle; otherwise 1 exactly if an edge is longer than the permitted maximum, otherwise 0. In 3D it never returns -1. The permitted lengths are interpolated linearly between the interface and the given distance. For triangles the decision does not depend on the unit of length.", "quantifier": "all elements and parameters", "why_tests_cant": "all coordinates and parameters", "anchors": ["dune/mmesh/remeshing/ratioindicator.hh: operator()"]}
{"id": "C45", "title": "Longest edge refinement", "statement": "The refinement strategy chooses an edge of maximal length of the element and its midpoint; the point does not depend on the element's vertex storage order up to ties.", "quantifier": "all elements", "why_tests_cant": "all coordinates", "anchors": ["dune/mmesh/remeshing/longestedgerefinement.hh: refinement"]}
{"id": "C46", "title": "Coarsening chooses by a well-defined order", "statement": "The comparison used to rank the vertices of an element for coarsening is a strict weak ordering, so the choice is well-defined.", "quantifier": "all elements and vertex attributes", "why_tests_cant": "all attribute combinations", "anchors": ["dune/mmesh/remeshing/longestedgerefinement.hh: coarsening"]}
{"id": "C47", "title": "Curvature fit is exact on spheres", "statement": "The curvature operator takes for each vertex of the interface its position and those of its neighbours, and for each element of an interface without boundary the corners of its neighbour elements, each once. If these points lie on a circle (2D) or sphere (3D) and the determinant of their normal equations exceeds the machine epsilon, the computed curvature and center are exactly those of that circle or sphere, whatever was computed before; points on a line or plane give curvature zero. For three points in the plane the threshold means that twice the area of their triangle exceeds 2^-26.", "quantifier": "all point sets on circles and spheres, all numbers of points, all orders of the elements and their intersections", "why_tests_cant": "all coordinates and numbers of points", "anchors": ["dune/mmesh/interface/curvatureoperator.hh: getRadius"]}
{"id": "C48", "title": "Persistent container keeps data", "statement": "Entries of a persistent container keep their values whatever happens to the grid, unless they are written; resizing twice without a grid change does nothing; if each change of the grid is followed by an increment of the sequence number, as in adapt(handle), every entity of the grid has an entry after resize.", "quantifier": "all histories of grid changes and container accesses", "why_tests_cant": "unbounded histories", "anchors": ["dune/mmesh/misc/persistentcontainer.hh"]}
{"id": "C49", "title": "Interface queries from several threads that do not overlap", "statement": "isInterface may be called from several threads one after the other, in any order: each call returns the right answer. For a facet with a vertex that is not on the interface the answer is right in every interleaving.", "quantifier": "all interleavings of two or more calls", "why_tests_cant": "schedules", "anchors": ["dune/mmesh/grid/mmesh.hh: isInterface(const InterfaceElement&)"]}
{"id": "C50", "title": "Boundary interface iteration option", "statement": "interfaceElements(gridView, true) visits in addition the interface segments on the domain boundary.", "quantifier": "all meshes", "why_tests_cant": "all meshes", "anchors": ["dune/mmesh/grid/mmesh.hh: interfaceBegin, interfaceEnd", "dune/mmesh/grid/interfaceiterator.hh"]}
{"id": "C51", "title": "Interface boundary segment indices", "statement": "If every interface element has at most one boundary facet, the boundary intersections of the interface grid have the boundary segment indices 0,...,numBoundarySegments()-1, each once.", "quantifier": "all interfaces", "why_tests_cant": "all interfaces", "anchors": ["dune/mmesh/interface/grid.hh: setIndices", "dune/mmesh/interface/intersections.hh: boundarySegmentIndex"]}
{"id": "C52", "title": "Iterative coupled solve reports convergence truthfully", "statement": "iterativeSolve makes between one and the allowed number of passes, stops after the first one that changes the iterate by less than the tolerance, and returns converged=True exactly if the last pass did; started at a fixed point it reports convergence.", "quantifier": "all solvers, tolerances and iteration limits", "why_tests_cant": "all iteration behaviours", "anchors": ["python/dune/mmesh/_solve.py: iterativeSolve, monolithicSolve"]}
{"id": "C53", "title": "moveMesh performs a bounded, checked movement", "statement": "moveMesh performs at most ten ensure steps and ten mark steps, adapts the given functions once for each, and moves the interface once, with the shifts that getShifts returned last, directly after twice these shifts were passed to ensureInterfaceMovement; if fewer than ten steps are reported this check returned False. If fewer than ten mark steps are reported no element is left marked.", "quantifier": "all grid behaviours", "why_tests_cant": "all behaviours of the called grid", "anchors": ["python/dune/mmesh/_move.py: moveMesh"]}
{"id": "C54", "title": "Interface queries agree", "statement": "For grids of the explicit factory, after every history of interface operations, isInterface(intersection), isInterface(codim-1 entity) and the interface grid's isInterface of the same facet give the same answer, and it is true exactly for the interface segments.", "quantifier": "all facets of all grids reachable by factory creation, addInterface, refinement and removal of interface vertices (executions without the undefined reads of C164)", "why_tests_cant": "the bulk query short-cuts through vertex flags, so agreement depends on an invariant over all histories", "anchors": ["dune/mmesh/grid/mmesh.hh: isInterface", "dune/mmesh/interface/grid.hh: isInterface, getVertexIds_"]}
{"id": "C55", "title": "Interface element does not depend on the side", "statement": "Converting a facet into an interface element gives an interface element with exactly the vertices of the facet; from both adjacent bulk elements it gives the same interface element if these have different insertion numbers, as any two elements of a created grid have.", "quantifier": "all interior facets of all valid triangulations and all stored insertion numbers", "why_tests_cant": "the choice of the representative depends on insertion numbers that adaptation leaves unset", "anchors": ["dune/mmesh/interface/entity.hh: MMeshInterfaceGridEntity constructor, equals", "dune/mmesh/grid/mmesh.hh: asInterfaceEntity"]}
{"id": "C56", "title": "preAdapt false means nothing can vanish", "statement": "If preAdapt of the bulk grid returns false, then no bulk element is marked for coarsening, no vertex is queued for removal and no interface element is marked. It returns true exactly if an interface element has been given a mark other than zero since the last postAdapt of the interface grid, or an element has been marked for coarsening or a vertex given to removeVertex since the last postAdapt.", "quantifier": "all sequences of mark, removeVertex and postAdapt calls on both grids", "why_tests_cant": "the answer is computed from counters, not from the marks, so agreement is an invariant over all call sequences", "anchors": ["dune/mmesh/grid/mmesh.hh: preAdapt, mark, postAdapt, removeVertex", "dune/mmesh/interface/grid.hh: preAdapt, mark, postAdapt"]}
{"id": "C57", "title": "Every request gets a complete component", "statement": "When adapt is called with pending requests whose conflict zones are connected by facets, building the components is defined exactly if no component comes too late in the order of iteration; then the component of each request contains exactly the old elements in the conflict zones of the requests linked with it, each once, and a new element of the request has this component. If all requests are linked this is the case in whatever order they were made.", "quantifier": "all grids, all sets and orders of requests", "why_tests_cant": "depends on the order of requests relative to the order of iteration; the failing orders read an indeterminate pointer, which may appear to work", "anchors": ["dune/mmesh/grid/mmesh.hh: adapt_, buildConnectedComponents_", "dune/mmesh/grid/connectedcomponent.hh: MMeshConnectedComponent, hasEntity, update"]}
{"id": "C58", "title": "New elements are assigned the component of the request that created them", "statement": "After adapt(), if no extension of the interface was given up, each new element around a vertex that was inserted for a request is registered with the connected component that was built for that request and with no other, whichever requests were dropped because their edge is gone.", "quantifier": "every list of insertion requests, with any pattern of requests that are carried out, dropped because the edge is gone, or given up because the new interface segment cannot be created", "why_tests_cant": "The pairing of vertices and components is by position in two vectors; it is only visible when a request in the middle of the list is dropped or given up.", "anchors": ["dune/mmesh/grid/mmesh.hh: adapt_, insertComponentIds, markElementsAfterInsertion_"]}
{"id": "C59", "title": "A refinement request of the interface splits the edge it was made for or nothing", "statement": "In a cycle that is closed by postAdapt, when adapt() carries out requests to refine interface edges, the edge that is split by a request is the one for which the request was made; a request whose edge is gone is dropped.", "quantifier": "every triangulation, every list of requests in every order, repeated calls of adapt()", "why_tests_cant": "The edge is stored as a handle that designates another edge after a neighbouring edge was split; the check compares vertex ids, and whether it can be fooled depends on uninitialised memory and on cached values.", "anchors": ["dune/mmesh/grid/mmesh.hh: adapt_, insertInEdge_, insertInInterface_", "dune/mmesh/grid/entity.hh: MMeshEntity::id", "dune/mmesh/cgal/defaults.hh: VertexInfo"]}
{"id": "C60", "title": "ensureInterfaceMovement false means the interface can be moved", "statement": "If no vertex is queued for removal and no crossing is discarded because its point is not on the interface edge, and ensureInterfaceMovement(shifts) returns false, then every cell has positive volume after moveInterface(shifts).", "quantifier": "every grid with positive cells, every vector of shifts, every history of earlier requests", "why_tests_cant": "The answer is false also when a degenerate cell was seen but nothing new was queued; that depends on earlier requests and on where crossing lines meet.", "anchors": ["dune/mmesh/grid/mmesh.hh: ensureInterfaceMovement, moveInterface"]}
{"id": "C61", "title": "Movement checks never queue corners, tips or junctions for removal", "statement": "A vertex that ensureInterfaceMovement or ensureVertexMovement queues for removal is a vertex off the interface whose stored boundary flag is 0, or an interface vertex with exactly two interface elements, so that tips and junctions are never queued; nothing is taken from the queue, however the call ends.", "quantifier": "every grid, every vector of shifts, every earlier state of the queue", "why_tests_cant": "The corner status is computed on first use, from whatever positions the vertices have at that moment, and then cached.", "anchors": ["dune/mmesh/grid/mmesh.hh: ensureInterfaceMovement, ensureVertexMovement", "dune/mmesh/remeshing/longestedgerefinement.hh: boundaryFlag, isRemoveable"]}
{"id": "C62", "title": "An element that survives an adaptation stays on its process", "statement": "An element that is not changed by adapt() has the same owner process before and after; otherwise its data would have to be sent.", "quantifier": "every grid, every number of processes, every adaptation", "why_tests_cant": "The owner depends on the position of the element in the iteration and on the total number of elements; small tests with one process never see it.", "anchors": ["dune/mmesh/misc/partitionhelper.hh: setRanks", "dune/mmesh/grid/mmesh.hh: adapt_, loadBalance"]}
{"id": "C63", "title": "Halving the longest edge produces no short edges", "statement": "If the indicator asks to refine a triangle, two of its edges are longer than the permitted maximum and its longest edge is halved, all edges of the two new triangles have at least the permitted minimal length, as the comment in the constructor claims, so refinement does not cause coarsening.", "quantifier": "all triangles and parameters of the indicator", "why_tests_cant": "all shapes of triangles; the bound is nearly attained by flat triangles", "anchors": ["dune/mmesh/remeshing/ratioindicator.hh: RatioIndicator, operator()", "dune/mmesh/remeshing/longestedgerefinement.hh: refinement"]}
{"id": "C64", "title": "Coarsening removes the latest vertices and keeps corners, tips and junctions", "statement": "The vertex that is removed because an interface element is marked for coarsening is a vertex of this element that is neither a tip nor a junction; none is removed only if there is no such vertex.", "quantifier": "all elements, insertion histories and lengths", "why_tests_cant": "all combinations of levels, lengths and constraints; undefined behaviour of std::sort", "anchors": ["dune/mmesh/remeshing/longestedgerefinement.hh: coarsening, isRemoveable"]}
{"id": "C65", "title": "Intermediate and vanished elements have data during an adaptation", "statement": "During the callbacks of an adaptation a data container that was resized offers entries for the elements that vanished, with their old values, and for every sub-entity of the intermediate elements passed to the callbacks; the latter are told apart from each other and from the entities of the grid.", "quantifier": "all histories, codimensions, sub-entity numbers and ids", "why_tests_cant": "histories are unbounded and the ids are reserved numbers at the end of the range", "anchors": ["dune/mmesh/misc/persistentcontainer.hh: resize", "dune/mmesh/grid/indexsets.hh: subId", "dune/mmesh/interface/indexsets.hh: subId"]}
{"id": "C66", "title": "New entities get the value passed to resize", "statement": "After a resize of a data container an entity that was never in the grid before has the value passed to resize, and the container holds entries only for entities that were in the grid at its construction or a resize, and for intermediate elements.", "quantifier": "all histories of adaptations, resizes and writes", "why_tests_cant": "an element must vanish and come back to see the difference; histories are unbounded", "anchors": ["dune/mmesh/misc/persistentcontainer.hh: resize"]}
{"id": "C67", "title": "Acceleration of the iterative solve is exact for uniform contraction", "statement": "With accelerate=True, if both schemes reduce the error of their target by a constant factor different from one, the targets are the solution after one pass; a solution is never left.", "quantifier": "all dimensions, factors different from one, starting values", "why_tests_cant": "ranges over all real vectors and factors", "anchors": ["python/dune/mmesh/_solve.py: iterativeSolve"]}
{"id": "C68", "title": "Monolithic solve reports convergence truthfully", "statement": "monolithicSolve returns True exactly when one of the at most iter Newton steps and the residual of both schemes after it are below the tolerances; then the targets are those after the first such step and their residual, evaluated after the callback, is below f_tol. Linear problems are solved in one step.", "quantifier": "all schemes, Jacobians, callbacks, tolerances, iteration numbers", "why_tests_cant": "ranges over arbitrary schemes and callbacks", "anchors": ["python/dune/mmesh/_solve.py: monolithicSolve"]}
{"id": "C69", "title": "The callback is called before every solve", "statement": "iterativeSolve calls the callback first, then in each pass the bulk scheme, the interface scheme and the callback (twice with acceleration), so that the callback is called before each bulk solve and once more before it returns.", "quantifier": "all schemes, callbacks, numbers of passes, with and without acceleration", "why_tests_cant": "unbounded numbers of passes and arbitrary schemes", "anchors": ["python/dune/mmesh/_solve.py: iterativeSolve"]}
{"id": "C70", "title": "A skeleton function has the value of the interface function", "statement": "When a skeleton function is bound to an intersection that is part of the interface, from the inside or from the outside, its value (and derivatives) at a point of the intersection, given in local coordinates of the element on that side, is the value of the interface function at the same physical point, whatever the function was bound to before. The values from the two sides agree.", "quantifier": "all valid grids in 2D and 3D, interface functions, facets, sides, points and previous binds", "why_tests_cant": "all vertex numberings on both sides of a facet and all interface functions", "anchors": ["dune/python/mmesh/pyskeletontrace.hh: SkeletonGF::bind, SkeletonGF::evaluate", "dune/mmesh/grid/intersections.hh: geometryInInside, geometryInOutside", "dune/mmesh/mmesh.hh: isInterface, asInterfaceEntity"]}
{"id": "C71", "title": "Skeleton functions and the indicator vanish off the interface", "statement": "The interface indicator is one on the intersections of the interface and zero on all others, and a skeleton function is zero on all other intersections, whatever it was bound to before.", "quantifier": "all grids, intersections, elements, interface functions and sequences of binds", "why_tests_cant": "all histories of a stateful local function", "anchors": ["dune/python/mmesh/pyskeletontrace.hh: SkeletonGF", "dune/python/mmesh/utility.hh: InterfaceIndicator"]}
{"id": "C72", "title": "The traces are the values in the adjacent elements", "statement": "The traces of a bulk function at a point of an interface element are the values of the function in the two adjacent elements at the same physical point, one for + and the other for -. Where the interface element lies on the domain boundary the + trace is the value in the only adjacent element and the - trace raises an exception.", "quantifier": "all valid grids in 2D and 3D, bulk functions, interface elements and points, also if the interface element was obtained from an infinite cell", "why_tests_cant": "all numberings and bulk functions", "anchors": ["dune/python/mmesh/pyskeletontrace.hh: TraceGF::bind, TraceGF::evaluate", "dune/mmesh/mmesh.hh: asIntersection", "dune/mmesh/interface/entity.hh: MMeshInterfaceGridEntity"]}
{"id": "C73", "title": "The + side of an interface element is unique and the normal points from + to -", "statement": "The normal of an interface element points from the element of the + trace to the element of the - trace; if the two elements have different insertion numbers, which of them is the + side does not depend on how the interface element was obtained.", "quantifier": "all valid grids in 2D and 3D with positively oriented elements, all interface elements, however obtained", "why_tests_cant": "all orders of insertion and all ways to reach the interface element", "anchors": ["dune/mmesh/interface/entity.hh: MMeshInterfaceGridEntity", "dune/mmesh/mmesh.hh: asIntersection, asInterfaceEntity", "dune/python/mmesh/utility.hh: Normals::bind"]}
{"id": "C74", "title": "The movement functions agree on the interface", "statement": "edgeMovement moves each interface vertex by the shift given for it and no other vertex, is continuous across facets, and on the interface agrees with interfaceEdgeMovement for the same shifts.", "quantifier": "all valid grids in 2D and 3D, shifts, numberings of the interface vertices, elements, facets and points", "why_tests_cant": "all numberings, shifts and points", "anchors": ["python/dune/mmesh/_utility.py: edgeMovement, interfaceEdgeMovement"]}
{"id": "C75", "title": "The gradient of the distance function is its gradient", "statement": "On every element the distance function of a grid takes the distances of the vertices, is affine in between, and its gradient is the gradient with respect to the global coordinates.", "quantifier": "all non-degenerate simplices in any dimension and all vertex distances", "why_tests_cant": "all elements and values; tests use a handful of meshes", "anchors": ["dune/python/mmesh/distance.hh: Distance::bind, evaluate, jacobian", "dune/python/mmesh/utility.hh: DistanceFunction::jacobian"]}
{"id": "C76", "title": "The coupling block of the bulk residual is its derivative by the interface unknowns", "statement": "For interfaces with bulk elements on both sides, the block of the monolithic Jacobian that couples the bulk equations to the interface unknowns holds the central difference quotients of the bulk residual with respect to each interface degree of freedom; it is the exact derivative if the residual is quadratic in the interface unknowns.", "quantifier": "all finite element spaces, grids with an interface, residuals and values of the degrees of freedom", "why_tests_cant": "all residuals, topologies and states", "anchors": ["dune/python/mmesh/jacobian.hh: assembleB", "dune/python/mmesh/jacobian.hh: convert"]}
{"id": "C77", "title": "The coupling block of the interface residual is its derivative by the bulk unknowns", "statement": "If no degree of freedom of the bulk space is shared by two elements (discontinuous spaces), the block of the monolithic Jacobian that couples the interface equations to the bulk unknowns holds the central difference quotients of the interface residual with respect to each bulk degree of freedom.", "quantifier": "all finite element spaces, grids with an interface, residuals and values of the degrees of freedom", "why_tests_cant": "all residuals, spaces (shared or separate degrees of freedom) and states", "anchors": ["dune/python/mmesh/jacobian.hh: assembleC"]}
{"id": "C78", "title": "Assembling the coupling blocks leaves the solution unchanged", "statement": "After the monolithic Jacobian is updated the bulk and interface solutions have the same values as before, and each evaluation in the monolithic Newton method sees the data the callback computed from the current values.", "quantifier": "all callbacks, spaces, states and numbers of Newton steps", "why_tests_cant": "all callbacks and histories", "anchors": ["dune/python/mmesh/jacobian.hh: update, assembleB, assembleC", "python/dune/mmesh/_solve.py: monolithicSolve"]}
{"id": "C79", "title": "The monolithic Jacobian solves the coupled linear system", "statement": "Given right hand sides for bulk and interface, solve returns bulk and interface corrections that satisfy both coupled linear equations with the current four blocks, for a first solve and for any sequence of solves with the same sparsity pattern.", "quantifier": "all block sizes, sparsity patterns, entries and right hand sides, all sequences of solves", "why_tests_cant": "all patterns and sizes, and histories of reuse", "anchors": ["dune/python/mmesh/jacobian.hh: setup, addBlock, setBlock, setBlocks, solve"]}
{"id": "C80", "title": "Intersection volume is the measure of the intersection", "statement": "intersectionVolume of an old element with a current element returns the area of the set of points that lie in both, up to the tolerance of the clipping; without the tolerance, over old elements that cover an element without overlapping the values add up to its area.", "quantifier": "all pairs of triangles with real coordinates, the old one in any orientation; all pairs of segments", "why_tests_cant": "all real coordinates and all ways two triangles can overlap", "anchors": ["dune/mmesh/grid/cachingentity.hh: intersectionVolume", "dune/mmesh/interface/cachingentity.hh: intersectionVolume", "dune/mmesh/grid/polygoncutting.hh: polygonArea"]}
{"id": "C81", "title": "Calls of the data handle during bulk adaptation", "statement": "adapt(handle) calls the handle for new elements only; for each part of a new element it first prolongs from the old element to the part and directly afterwards restricts from the part to the new element, with the right father bound in each call; initialize is true in exactly the first restriction to each new element.", "quantifier": "all lists of leaf elements, all components, all cut sets, all handles", "why_tests_cant": "every mesh, every component, every handle", "anchors": ["dune/mmesh/grid/mmesh.hh: adapt(handle)", "dune/mmesh/grid/cutsettriangulation.hh"]}
{"id": "C82", "title": "Transfer of piecewise constant data is conservative", "statement": "With the default piecewise constant restriction and prolongation the value of a new element after adapt(handle) is the average of the old values over it; the integral does not change, no new extrema appear, constants stay constant, and no other value is touched (without the thresholds for small intersections).", "quantifier": "all meshes, old and new, of the same region with real coordinates; all data", "why_tests_cant": "all meshes, coordinates and data", "anchors": ["dune/mmesh/grid/mmesh.hh: adapt(handle)", "dune/mmesh/grid/entity.hh: geometryInFather", "dune/mmesh/grid/cutsettriangulation.hh"]}
{"id": "C83", "title": "Transfer of piecewise constant data on the interface", "statement": "During adapt(handle) of the interface grid a part of a refined segment gets the value of the old segment; a segment that replaces two others that are not longer than it and whose common corner projects into it gets their average weighted by the projected lengths, so constants stay constant; no other value is touched.", "quantifier": "all interface grids of dimension one, all data", "why_tests_cant": "all interface geometries and data", "anchors": ["dune/mmesh/interface/grid.hh: adapt(handle)", "dune/mmesh/interface/entity.hh: geometryInFather"]}
{"id": "C84", "title": "Removing an interface vertex keeps the interface in the mesh", "statement": "When an interface vertex with two neighbours on the interface is removed in 2d, and the other neighbours between the two lie on the proper sides of the new segment with at least one on each side, the star is cut along the new segment into the part right of it and the part left of it, each part is meshed separately, and the two new elements at the segment become mutual neighbours, so that the new interface segment is an edge of the mesh.", "quantifier": "all stars of vertices: any number of neighbours, any positions, any starting point of the boundary of the hole", "why_tests_cant": "all shapes of the star and all positions of the interface in it", "anchors": ["dune/mmesh/cgal/triangulationwrapper.hh: Plane, remeshHoleConstrained", "dune/mmesh/grid/mmesh.hh: removeFromInterface_"]}
{"id": "C85", "title": "Boundary ids of a DGF file arrive at the intersections", "statement": "After reading a DGF file on one process, `boundaryId` of the intersection with the vertices of a listed face, in any order, is the id given in the file; a face listed twice is rejected.", "quantifier": "all numbers of vertices, all lists of faces with ids, all boundary facets of the mesh", "why_tests_cant": "all files and all vertex orders of the intersections", "anchors": ["dune/mmesh/grid/dgfparser.hh: generate", "dune/mmesh/grid/explicitgridfactory.hh: addBoundaryId, insertBoundarySegment", "dune/mmesh/grid/intersections.hh: boundarySegmentIndex, boundaryId", "dune/mmesh/grid/mmesh.hh: update"]}
{"id": "C86", "title": "The implicit factory keeps vertices and their numbers", "statement": "The grid made from a cloud of points has exactly the given points as vertices, each once; `insertionIndex` of a vertex is the number of the last insertion at its position, hence the number of its insertion if the points are different.", "quantifier": "all histories of insertVertex, insertBoundarySegment and insertInterface, including repeated points and caught exceptions", "why_tests_cant": "all histories of calls, all coincidences of points", "anchors": ["dune/mmesh/grid/implicitgridfactory.hh: insertVertex, insertInterface, insertBoundarySegment, insertionIndex", "dune/mmesh/grid/mmesh.hh: isInterface"]}
{"id": "C87", "title": "A structured grid has the vertices of the lattice", "statement": "`createStructuredGrid` gives a grid whose vertices are exactly the lattice points of the box with the given number of elements in each direction, each once; their insertion indices are the lexicographic numbers; both corners of the box are vertices.", "quantifier": "all dimensions, all boxes, all numbers of elements", "why_tests_cant": "all boxes and all numbers of elements", "anchors": ["dune/mmesh/grid/structuredgridfactory.hh: createStructuredGrid"]}
{"id": "C88", "title": "The factory of the interface grid makes exactly the inserted elements interface elements", "statement": "After vertices and elements of the mesh were given to the factory of the interface grid, a facet of the mesh is an interface element exactly if it was one before or was inserted; `insertionIndex` of an interface element is the number of the first `insertElement` call that named it.", "quantifier": "all meshes with valid ids and flags, all histories of insertVertex, addVertexHandle and insertElement", "why_tests_cant": "all histories of calls and all meshes", "anchors": ["dune/mmesh/interface/gridfactory.hh: insertVertex, addVertexHandle, insertElement, insertionIndex", "dune/mmesh/grid/mmesh.hh: isInterface"]}
{"id": "C89", "title": "Incident elements, facets and vertices of the mesh", "statement": "`incidentElements`, `incidentFacets` and `incidentVertices` visit exactly the elements, facets and vertices of the grid that touch the given vertex (or edge in 3d), each once; the infinite vertex is visited only if asked for; the loop ends and never reads outside of its container.", "quantifier": "all triangulations around whose vertices CGAL's circulators run through all cells (shown for the grids of the explicit factory in 2D in C168, false if the boundary touches itself: C169), all vertices and edges, all starting points and directions of CGAL's circulators", "why_tests_cant": "all triangulations and all orders in which CGAL reports neighbours", "anchors": ["dune/mmesh/grid/incidentiterator.hh", "dune/mmesh/grid/rangegenerators.hh"]}
{"id": "C90", "title": "Incident elements and vertices of the interface, tips", "statement": "`incidentInterfaceElements` visits exactly the interface elements that contain the given vertex or edge, each once; `isTip` holds exactly for vertices inside the domain that belong to exactly one interface element (in 2D).", "quantifier": "all meshes with valid flags, all interface vertices", "why_tests_cant": "all meshes and interfaces, including several interfaces close to each other", "anchors": ["dune/mmesh/interface/incidentiterator.hh", "dune/mmesh/interface/entity.hh: isTip", "dune/mmesh/interface/curvatureoperator.hh"]}
{"id": "C91", "title": "Edges and elements at the interface", "statement": "In 3d `isInterface(edge)` holds exactly for the edges of interface elements; `isOnInterface(element)` holds exactly if a facet of the element is an interface element.", "quantifier": "all meshes, all edges and elements", "why_tests_cant": "all positions of an edge in the sorted ids of a segment", "anchors": ["dune/mmesh/grid/mmesh.hh: isInterface(const Edge&), isOnInterface"]}
{"id": "C92", "title": "Comparison of entities", "statement": "Two entity objects of the leaf grid of the same codimension compare equal if and only if they are the same entity of the mesh, i.e. have the same vertices (and the same id), however they were obtained: edges and facets from either adjacent element, edges in 3D from any tetrahedron.", "quantifier": "all grids, all pairs of entity objects of a codimension, at all times", "why_tests_cant": "it ranges over all triangulations and over all ways to obtain an object, including objects that are older than the grid", "anchors": ["dune/mmesh/grid/entity.hh: equals", "dune/mmesh/interface/entity.hh: equals, constructors", "dune/mmesh/grid/cachingentity.hh"]}
{"id": "C93", "title": "Copies and seeds of entities", "statement": "A copy of a leaf element and the element made from its seed are equal to the original and have the same id and geometry; the same for seeds of interface elements and facets; a default constructed seed is not valid.", "quantifier": "all grids, all entities, all moments before and after adaptations", "why_tests_cant": "it ranges over all entities and over all times at which ids are cached, copies made and seeds used", "anchors": ["dune/mmesh/grid/entity.hh: copy constructors, operator=, seed, id", "dune/mmesh/grid/entityseed.hh: MMeshEntitySeed", "dune/mmesh/interface/entityseed.hh", "dune/mmesh/grid/mmesh.hh: entity(seed)"]}
{"id": "C94", "title": "Geometry in the father", "statement": "For an element of a 2D grid with a bound father, mapping a point by geometryInFather() and then by the geometry of the father gives the same point as the element's own geometry; its corners lie in the reference element if the element lies in the father, and its area is the ratio of the areas.", "quantifier": "all fathers with positive area, all elements, all local points", "why_tests_cant": "it ranges over all positions of triangles and segments", "anchors": ["dune/mmesh/grid/entity.hh: bindFather, geometryInFather", "dune/mmesh/interface/entity.hh: bindFather, geometryInFather"]}
{"id": "C95", "title": "Scalar product, norm and operator on several processes", "statement": "With the iterative solver of the coupled problem on several processes, the scalar product and the norm count every degree of freedom exactly once, and applying the operator gives every process its part of the product of the global matrix with the global vector, provided the owner of a degree of freedom has its complete row.", "quantifier": "any number of processes, any distribution of the bulk and interface dofs, all matrices and vectors", "why_tests_cant": "it ranges over all distributions, overlaps and values in the overlap", "anchors": ["dune/python/mmesh/jacobian_iterative.hh: ParallelizedScalarProduct, ParallelizedMatrixAdapter"]}
{"id": "C96", "title": "Parallel solve equals serial solve", "statement": "The iterative solve of the coupled problem on several processes never blocks because processes disagree on the next step, ends exactly if the solve on one process ends, and gives every process its part of the solution computed on one process, for any iterative method that uses only the scalar product, the norm, the operator and linear combinations, provided the owner of a degree of freedom has its complete row.", "quantifier": "any solver, any number of iterations, any number of processes and distribution, all matrices and right hand sides", "why_tests_cant": "it is a statement about all executions of all solvers", "anchors": ["dune/python/mmesh/jacobian_iterative.hh: Jacobian::solve"]}
{"id": "C97", "title": "A solve that does not converge is reported", "statement": "If the iterative solve of the coupled problem returns, the functions it returns solve the linear system (up to the tolerance), or the caller is told.", "quantifier": "all solvers and iteration limits, all systems", "why_tests_cant": "it depends on the iteration limit and the system", "anchors": ["dune/python/mmesh/jacobian_iterative.hh: Jacobian::solve"]}
{"id": "C98", "title": "Domain markers of elements", "statement": "In a grid created by the explicit factory there is exactly one element for every inserted element, and the element with insertion index k has the vertices and the domain marker of the k-th inserted element, in whatever order the elements are sorted.", "quantifier": "all sequences of inserted vertices and elements, all coordinates, all sorting results, all sequences of insertions and removals of vertices", "why_tests_cant": "the elements are sorted by coordinates, which permutes the insertion order in a way that depends on the input; adaptation depends on the host grid", "anchors": ["dune/mmesh/grid/explicitgridfactory.hh: insertElement, createElement, createGrid", "dune/mmesh/grid/implicitgridfactory.hh: insertElement", "dune/mmesh/cgal/defaults.hh: ElementInfo", "dune/mmesh/grid/mmesh.hh: adapt_"]}
{"id": "C99", "title": "Markers of interface elements under adaptation", "statement": "Refining the interface keeps the marker at every point of the interface, and added facets have the marker they were added with and keep it; after any history of operations every marker is one that was given by the user or 1; reading the marker of an interface element changes nothing.", "quantifier": "all grids, all histories of addInterface, refinement, extension, crossing, removal and adaptation, all positions (executions without the undefined reads of C164)", "why_tests_cant": "it ranges over all histories of adaptations", "anchors": ["dune/mmesh/grid/mmesh.hh: addInterface, insertVertexInInterface_, removeFromInterface_, adapt_", "dune/mmesh/interface/grid.hh: domainMarker"]}
{"id": "C100", "title": "Length of integrationOuterNormal on the interface in 3D", "statement": "integrationOuterNormal of an edge of an interface triangle has the length of the edge.", "quantifier": "all non-degenerate triangles in space", "why_tests_cant": "universally quantified over coordinates", "anchors": ["dune/mmesh/interface/intersections.hh: integrationOuterNormal"]}
{"id": "C101", "title": "Number of sub-entities of interface edges and vertices", "statement": "subEntities(cc) of an interface entity of codimension greater than 0 returns the number of its sub-entities of codimension cc.", "quantifier": "all dimensions, codimensions and cc", "why_tests_cant": "simple arithmetic but a separate implementation per entity class; tests call it for codimension 0 only", "anchors": ["dune/mmesh/grid/entity.hh: subEntities", "dune/mmesh/grid/cachingentity.hh: subEntities", "dune/mmesh/interface/entity.hh: subEntities"]}
{"id": "C102", "title": "Explicit factory orients tetrahedra positively", "statement": "In 3D every element of a created grid is positively oriented, whatever vertex order the caller used.", "quantifier": "all element coordinates and vertex orders", "why_tests_cant": "all coordinates", "anchors": ["dune/mmesh/grid/explicitgridfactory.hh: createElement"]}
{"id": "C103", "title": "Boundary segment indices are consecutive", "statement": "In a created grid the values of boundarySegmentIndex are exactly 0,...,numBoundarySegments()-1.", "quantifier": "all sequences of insertBoundarySegment/insertInterface calls followed by createGrid", "why_tests_cant": "all call sequences", "anchors": ["dune/mmesh/grid/explicitgridfactory.hh: insertBoundarySegment, createGrid, createInfiniteCells", "dune/mmesh/grid/intersections.hh: boundarySegmentIndex"]}
{"id": "C104", "title": "Gmsh reader: files that are not well-formed or not numbered consecutively", "statement": "The reader never reads outside of an element line, whatever integers it contains, and it respects the node numbers of the file.", "quantifier": "all element lines (lists of integers)", "why_tests_cant": "all file contents, including malformed ones", "anchors": ["dune/mmesh/grid/gmshgridfactory.hh: GmshGridFactory::generate"]}
{"id": "C105", "title": "Iteration over interface elements after adaptation and on the boundary", "statement": "Iterating over the elements of the interface grid visits each interface segment exactly once at all times, also on the domain boundary.", "quantifier": "all triangulations, interfaces and insertion numbers of bulk elements", "why_tests_cant": "all meshes and adaptation histories", "anchors": ["dune/mmesh/interface/leafiterator.hh: proceed", "dune/mmesh/interface/entity.hh: constructor"]}
{"id": "C106", "title": "Interface leaf indices for the elements that are visited", "statement": "After an index update the indices of interface elements and vertices of the grid are exactly 0,...,size-1 without repetition, at all times.", "quantifier": "all interfaces in all triangulations", "why_tests_cant": "all meshes", "anchors": ["dune/mmesh/interface/indexsets.hh: update, index, size"]}
{"id": "C107", "title": "Marks of the interface grid: the last mark counts", "statement": "For the interface grid, after mark(r, e), getMark(e) returns r until the next mark of e or postAdapt.", "quantifier": "all sequences of mark calls and values", "why_tests_cant": "all call sequences", "anchors": ["dune/mmesh/grid/mmesh.hh: mark, getMark", "dune/mmesh/interface/grid.hh: mark, getMark"]}
{"id": "C108", "title": "Conflict components in later cycles at the boundary", "statement": "In every adaptation cycle two requests carry the same component number only if they are linked by a chain of requests with overlapping conflict zones.", "quantifier": "all sets and orders of requests with arbitrary conflict zones", "why_tests_cant": "fixpoint iteration over arbitrary overlap graphs; termination", "anchors": ["dune/mmesh/grid/mmesh.hh: adapt_, markElementsForInsertion_, markElementsForRemoval_, getComponentNumber_"]}
{"id": "C109", "title": "Removing tips and junctions", "statement": "Requesting the removal of a tip or junction vertex leaves the interface unchanged.", "quantifier": "all interfaces", "why_tests_cant": "all interfaces", "anchors": ["dune/mmesh/grid/mmesh.hh: removeFromInterface_"]}
{"id": "C110", "title": "Requests are cleared", "statement": "After postAdapt no request and no mark is left over, for both grids, and crossings are queued at most once.", "quantifier": "all sequences of refineEdge, removeVertex, mark, adapt, postAdapt", "why_tests_cant": "all call sequences", "anchors": ["dune/mmesh/grid/mmesh.hh: refineEdge, removeVertex, adapt, postAdapt"]}
{"id": "C111", "title": "Interface segments stay facets", "statement": "At every time each interface segment is a facet of the current triangulation, whatever sequence of interface operations was executed.", "quantifier": "all histories of interface operations (executions without the undefined reads of C164)", "why_tests_cant": "unbounded histories", "anchors": ["dune/mmesh/grid/mmesh.hh: addInterface, insertInInterface_, removeFromInterface_, adapt_"]}
{"id": "C112", "title": "ensureInterfaceMovement does not move the mesh, however it ends", "statement": "After ensureInterfaceMovement(shifts) every vertex is at the position it had before the call, also if an exception is thrown, with machine numbers.", "quantifier": "all meshes, shifts and control flow paths", "why_tests_cant": "all paths incl. exceptions and the special treatment of crossing interfaces", "anchors": ["dune/mmesh/grid/mmesh.hh: ensureInterfaceMovement"]}
{"id": "C113", "title": "ensureVertexMovement returning false means the movement is safe", "statement": "If ensureVertexMovement(shifts) returns false, every cell has positive volume after moveVertices(shifts); it leaves vertex positions unchanged however it ends.", "quantifier": "all meshes and shifts", "why_tests_cant": "all meshes and shifts", "anchors": ["dune/mmesh/grid/mmesh.hh: ensureVertexMovement"]}
{"id": "C114", "title": "Parallel: ghosts are facet neighbours", "statement": "On each process an element is ghost exactly when it is not interior there and shares a facet with an interior element; recomputing the partition starts from empty maps.", "quantifier": "all meshes and distributions", "why_tests_cant": "all meshes and distributions", "anchors": ["dune/mmesh/misc/partitionhelper.hh: computePartitions, addConnectivity"]}
{"id": "C115", "title": "Parallel: every ghost gets data", "statement": "In a forward communication every ghost element of the bulk grid receives the data of its owner.", "quantifier": "all meshes, distributions, numbers of processes and data sizes", "why_tests_cant": "all meshes, process counts and data", "anchors": ["dune/mmesh/misc/communication.hh: PackData, UnpackData", "dune/mmesh/misc/partitionhelper.hh"]}
{"id": "C116", "title": "Object stream: errors, alignment and readStream", "statement": "Reading more than was written is reported, values of any types may be mixed, and readStream copies exactly what has not been read yet.", "quantifier": "all sequences of write/read operations and sizes", "why_tests_cant": "all sequences; reallocation boundaries", "anchors": ["dune/mmesh/misc/objectstream.hh: write, read, reserve, reallocateBuffer"]}
{"id": "C117", "title": "The volumes of a cut set add up exactly", "statement": "With the thresholds of the code the volumes of the triangles of a cut set add up to the area of the intersection polygon.", "quantifier": "all polygons", "why_tests_cant": "all polygon sizes and coordinates", "anchors": ["dune/mmesh/grid/polygoncutting.hh: polygonArea", "dune/mmesh/grid/cutsettriangulation.hh"]}
{"id": "C118", "title": "Distance at vertices that are not interior", "statement": "The stored distance is the distance to the interface for every vertex of the grid, on every process.", "quantifier": "all points and interfaces in 2D", "why_tests_cant": "all coordinates and numbers of segments", "anchors": ["dune/mmesh/remeshing/distance.hh: computeDistance, handleFacet, update"]}
{"id": "C119", "title": "Ratio indicator: unit of length on the interface, documented minimum", "statement": "The decision for interface elements does not depend on the unit of length, and the permitted minimum is half the shortest edge as documented.", "quantifier": "all elements and parameters", "why_tests_cant": "all coordinates and parameters", "anchors": ["dune/mmesh/remeshing/ratioindicator.hh: operator()"]}
{"id": "C120", "title": "Persistent container after adapt() without data handle", "statement": "After adapt() or globalRefine and resize every entity of the grid has an entry in a persistent container.", "quantifier": "all histories of grid changes and container accesses", "why_tests_cant": "unbounded histories", "anchors": ["dune/mmesh/misc/persistentcontainer.hh"]}
{"id": "C121", "title": "iterativeSolve: reported number of iterations and its arguments", "statement": "The reported 'iterations' is the number of passes performed, iter=0 is handled, and f_tol is used when given.", "quantifier": "all solvers, tolerances and iteration limits", "why_tests_cant": "all iteration behaviours", "anchors": ["python/dune/mmesh/_solve.py: iterativeSolve, monolithicSolve"]}
{"id": "C122", "title": "moveMesh moves only if the check succeeded", "statement": "moveMesh moves the interface only if ensureInterfaceMovement returned False for twice the shifts, adapts the grid in each step, and accepts any sequence of shifts.", "quantifier": "all grid behaviours", "why_tests_cant": "all behaviours of the called grid", "anchors": ["python/dune/mmesh/_move.py: moveMesh"]}
{"id": "C123", "title": "Interface queries agree for grids of the implicit factory", "statement": "For grids of the implicit factory the three queries agree and are true exactly for the inserted interface segments.", "quantifier": "all facets of all grids reachable by factory creation, addInterface, refinement and removal of interface vertices", "why_tests_cant": "the bulk query short-cuts through vertex flags, so agreement depends on an invariant over all histories", "anchors": ["dune/mmesh/grid/mmesh.hh: isInterface", "dune/mmesh/interface/grid.hh: isInterface, getVertexIds_"]}
{"id": "C124", "title": "Halving the longest edge of a triangle with one long edge", "statement": "If the indicator asks to refine a triangle and its longest edge is halved, all edges of the two new triangles have at least the permitted minimal length.", "quantifier": "all triangles and parameters of the indicator", "why_tests_cant": "all shapes of triangles; the bound is nearly attained by flat triangles", "anchors": ["dune/mmesh/remeshing/ratioindicator.hh: RatioIndicator, operator()", "dune/mmesh/remeshing/longestedgerefinement.hh: refinement"]}
{"id": "C125", "title": "Coarsening of bulk elements removes the latest vertices and keeps corners", "statement": "The vertex that is removed because a bulk element is marked for coarsening is the one inserted last by refinement (higher insertion level has priority, as the code comment says), and not a corner of the domain.", "quantifier": "all elements, insertion histories and lengths", "why_tests_cant": "all combinations of levels, lengths and constraints; undefined behaviour of std::sort", "anchors": ["dune/mmesh/remeshing/longestedgerefinement.hh: coarsening, isRemoveable"]}
{"id": "C126", "title": "A container that was never resized has data for intermediate elements", "statement": "A data container offers entries for the intermediate elements also if it was constructed and never resized.", "quantifier": "all histories, codimensions, sub-entity numbers and ids", "why_tests_cant": "histories are unbounded and the ids are reserved numbers at the end of the range", "anchors": ["dune/mmesh/misc/persistentcontainer.hh: resize", "dune/mmesh/grid/indexsets.hh: subId", "dune/mmesh/interface/indexsets.hh: subId"]}
{"id": "C127", "title": "Entities that come back get the value passed to resize", "statement": "After a resize of a data container an entity that was not in the grid at the previous resize has the value passed to resize.", "quantifier": "all histories of adaptations, resizes and writes", "why_tests_cant": "an element must vanish and come back to see the difference; histories are unbounded", "anchors": ["dune/mmesh/misc/persistentcontainer.hh: resize"]}
{"id": "C128", "title": "The callback is called before every interface solve", "statement": "iterativeSolve calls the callback every time before it solves one of the schemes.", "quantifier": "all schemes, callbacks, numbers of passes, with and without acceleration", "why_tests_cant": "unbounded numbers of passes and arbitrary schemes", "anchors": ["python/dune/mmesh/_solve.py: iterativeSolve"]}
{"id": "C129", "title": "Skeleton functions vanish inside elements", "statement": "A skeleton function is zero inside elements, whatever it was bound to before.", "quantifier": "all grids, intersections, elements, interface functions and sequences of binds", "why_tests_cant": "all histories of a stateful local function", "anchors": ["dune/python/mmesh/pyskeletontrace.hh: SkeletonGF", "dune/python/mmesh/utility.hh: InterfaceIndicator"]}
{"id": "C130", "title": "Coupling block for interface elements on the domain boundary", "statement": "The coupling block of the bulk residual is assembled also for interface elements on the domain boundary.", "quantifier": "all finite element spaces, grids with an interface, residuals and values of the degrees of freedom", "why_tests_cant": "all residuals, topologies and states", "anchors": ["dune/python/mmesh/jacobian.hh: assembleB", "dune/python/mmesh/jacobian.hh: convert"]}
{"id": "C131", "title": "Coupling block of the interface residual for continuous bulk spaces", "statement": "For continuous bulk spaces too the coupling block holds the central difference quotients of the interface residual.", "quantifier": "all finite element spaces, grids with an interface, residuals and values of the degrees of freedom", "why_tests_cant": "all residuals, spaces (shared or separate degrees of freedom) and states", "anchors": ["dune/python/mmesh/jacobian.hh: assembleC"]}
{"id": "C132", "title": "Callback data after an update of the Jacobian", "statement": "After the monolithic Jacobian is updated the data of the callback belongs to the current solution.", "quantifier": "all callbacks, spaces, states and numbers of Newton steps", "why_tests_cant": "all callbacks and histories", "anchors": ["dune/python/mmesh/jacobian.hh: update, assembleB, assembleC", "python/dune/mmesh/_solve.py: monolithicSolve"]}
{"id": "C133", "title": "The monolithic Jacobian after a change of the sparsity pattern", "statement": "solve uses the current four blocks also if their sparsity pattern changed since the last solve.", "quantifier": "all block sizes, sparsity patterns, entries and right hand sides, all sequences of solves", "why_tests_cant": "all patterns and sizes, and histories of reuse", "anchors": ["dune/python/mmesh/jacobian.hh: setup, addBlock, setBlock, setBlocks, solve"]}
{"id": "C134", "title": "Intersection volume on the interface", "statement": "On the interface intersectionVolume returns the length of the common part of the two segments.", "quantifier": "all pairs of triangles with real coordinates, the old one in any orientation; all pairs of segments", "why_tests_cant": "all real coordinates and all ways two triangles can overlap", "anchors": ["dune/mmesh/grid/cachingentity.hh: intersectionVolume", "dune/mmesh/interface/cachingentity.hh: intersectionVolume", "dune/mmesh/grid/polygoncutting.hh: polygonArea"]}
{"id": "C135", "title": "Transfer of piecewise constant data with the thresholds of the code", "statement": "With the thresholds of the code every new element gets a value whose integral differs from the one of the old values by a multiple of the threshold.", "quantifier": "all meshes, old and new, of the same region with real coordinates; all data", "why_tests_cant": "all meshes, coordinates and data", "anchors": ["dune/mmesh/grid/mmesh.hh: adapt(handle)", "dune/mmesh/grid/entity.hh: geometryInFather", "dune/mmesh/grid/cutsettriangulation.hh"]}
{"id": "C136", "title": "Transfer of constants at sharp corners of the interface", "statement": "Whenever a segment of the interface replaces two others, constants stay constant.", "quantifier": "all interface grids of dimension one, all data", "why_tests_cant": "all interface geometries and data", "anchors": ["dune/mmesh/interface/grid.hh: adapt(handle)", "dune/mmesh/interface/entity.hh: geometryInFather"]}
{"id": "C137", "title": "Removing an interface vertex at a bend", "statement": "The star is cut along the new segment also at bends of the interface and if the two neighbours are joined already.", "quantifier": "all stars of vertices: any number of neighbours, any positions, any starting point of the boundary of the hole", "why_tests_cant": "all shapes of the star and all positions of the interface in it", "anchors": ["dune/mmesh/cgal/triangulationwrapper.hh: Plane, remeshHoleConstrained", "dune/mmesh/grid/mmesh.hh: removeFromInterface_"]}
{"id": "C138", "title": "Boundary ids on several processes and after refinement", "statement": "The boundary ids of a DGF file arrive at the intersections on every process and after refinement.", "quantifier": "all numbers of vertices, all lists of faces with ids, all boundary facets of the mesh", "why_tests_cant": "all files and all vertex orders of the intersections", "anchors": ["dune/mmesh/grid/dgfparser.hh: generate", "dune/mmesh/grid/explicitgridfactory.hh: addBoundaryId, insertBoundarySegment", "dune/mmesh/grid/intersections.hh: boundarySegmentIndex, boundaryId", "dune/mmesh/grid/mmesh.hh: update"]}
{"id": "C139", "title": "Interface segments of the implicit factory", "statement": "A segment inserted as interface in the implicit factory is an interface facet of the grid if it is a facet; inserting a point again does not change numbers.", "quantifier": "all histories of insertVertex, insertBoundarySegment and insertInterface, including repeated points and caught exceptions", "why_tests_cant": "all histories of calls, all coincidences of points", "anchors": ["dune/mmesh/grid/implicitgridfactory.hh: insertVertex, insertInterface, insertBoundarySegment, insertionIndex", "dune/mmesh/grid/mmesh.hh: isInterface"]}
{"id": "C140", "title": "The factory of the interface grid with new vertices", "statement": "The same holds if vertices that the mesh does not have are given to the factory of the interface grid.", "quantifier": "all meshes with valid ids and flags, all histories of insertVertex, addVertexHandle and insertElement", "why_tests_cant": "all histories of calls and all meshes", "anchors": ["dune/mmesh/interface/gridfactory.hh: insertVertex, addVertexHandle, insertElement, insertionIndex", "dune/mmesh/grid/mmesh.hh: isInterface"]}
{"id": "C141", "title": "Incident vertices of the interface", "statement": "`incidentInterfaceVertices` visits exactly the vertices joined with the given one by an interface element.", "quantifier": "all meshes with valid flags, all interface vertices", "why_tests_cant": "all meshes and interfaces, including several interfaces close to each other", "anchors": ["dune/mmesh/interface/incidentiterator.hh", "dune/mmesh/interface/entity.hh: isTip", "dune/mmesh/interface/curvatureoperator.hh"]}
{"id": "C142", "title": "Comparison of interface elements and of elements during adaptation", "statement": "Two interface elements, and two old or intermediate elements that the data handle gets during adaptation, compare equal if and only if they are the same.", "quantifier": "all grids, all pairs of entity objects of a codimension, at all times", "why_tests_cant": "it ranges over all triangulations and over all ways to obtain an object, including objects that are older than the grid", "anchors": ["dune/mmesh/grid/entity.hh: equals", "dune/mmesh/interface/entity.hh: equals, constructors", "dune/mmesh/grid/cachingentity.hh"]}
{"id": "C143", "title": "Assignment of facets and seeds of old elements", "statement": "An assigned facet has the id of the original; a seed says it is valid exactly if the entity can be restored from it.", "quantifier": "all grids, all entities, all moments before and after adaptations", "why_tests_cant": "it ranges over all entities and over all times at which ids are cached, copies made and seeds used", "anchors": ["dune/mmesh/grid/entity.hh: copy constructors, operator=, seed, id", "dune/mmesh/grid/entityseed.hh: MMeshEntitySeed", "dune/mmesh/interface/entityseed.hh", "dune/mmesh/grid/mmesh.hh: entity(seed)"]}
{"id": "C144", "title": "Geometry in the father of copies and on the interface", "statement": "A copy of an element keeps its father; on the interface mapping by geometryInFather() and the geometry of the father gives the same point as the element's own geometry.", "quantifier": "all fathers with positive area, all elements, all local points", "why_tests_cant": "it ranges over all positions of triangles and segments", "anchors": ["dune/mmesh/grid/entity.hh: bindFather, geometryInFather", "dune/mmesh/interface/entity.hh: bindFather, geometryInFather"]}
{"id": "C145", "title": "Domain markers of the implicit factory and under adaptation", "statement": "The implicit factory keeps domain markers, and markers of elements are kept when the grid is adapted.", "quantifier": "all sequences of inserted vertices and elements, all coordinates, all sorting results, all sequences of insertions and removals of vertices", "why_tests_cant": "the elements are sorted by coordinates, which permutes the insertion order in a way that depends on the input; adaptation depends on the host grid", "anchors": ["dune/mmesh/grid/explicitgridfactory.hh: insertElement, createElement, createGrid", "dune/mmesh/grid/implicitgridfactory.hh: insertElement", "dune/mmesh/cgal/defaults.hh: ElementInfo", "dune/mmesh/grid/mmesh.hh: adapt_"]}
{"id": "C146", "title": "Interface markers when the interface is extended or joined", "statement": "An extension of the interface has the marker of the part it extends, joining two parts keeps their markers, reading a marker of any facet changes nothing.", "quantifier": "all grids, all histories of addInterface, refinement, extension, crossing, removal and adaptation, all positions", "why_tests_cant": "it ranges over all histories of adaptations", "anchors": ["dune/mmesh/grid/mmesh.hh: addInterface, insertVertexInInterface_, removeFromInterface_, adapt_", "dune/mmesh/interface/grid.hh: domainMarker"]}
{"id": "C147", "title": "Curvature at small scales, centers of flat parts, elements at the boundary of the interface", "statement": "The curvature operator computes the curvature of interface vertices at any scale of the coordinates, the center stored for a vertex depends only on the points of that vertex, and the element layout is defined for every interface.", "quantifier": "all interfaces, both layouts", "why_tests_cant": "the result depends on the scale, on the order of the iteration and on whether the interface has a boundary", "anchors": ["dune/mmesh/interface/curvatureoperator.hh: getRadius, operator()", "dune/mmesh/interface/intersections.hh: outside"]}
{"id": "C148", "title": "Interface element does not depend on the side after adaptation", "statement": "Converting a facet into an interface element gives equal interface elements from both adjacent bulk elements, also if adaptation made one of them.", "quantifier": "all interior facets of all valid triangulations and all stored insertion numbers", "why_tests_cant": "the choice of the representative depends on insertion numbers that adaptation leaves unset", "anchors": ["dune/mmesh/interface/entity.hh: MMeshInterfaceGridEntity constructor, equals", "dune/mmesh/grid/mmesh.hh: asInterfaceEntity"]}
{"id": "C149", "title": "Interface boundary segment indices of elements with several boundary facets", "statement": "Each boundary intersection of the interface grid has a boundarySegmentIndex below numBoundarySegments(), and different boundary intersections have different indices, also if an interface element has several boundary facets.", "quantifier": "all interfaces", "why_tests_cant": "all interfaces", "anchors": ["dune/mmesh/interface/grid.hh: setIndices", "dune/mmesh/interface/intersections.hh: boundarySegmentIndex"]}
{"id": "C150", "title": "New elements are assigned the component of their request when an extension is given up", "statement": "After adapt(), each new element around a vertex that was inserted for a request is registered with the connected component of that request, also if another request of the list was given up because the new interface segment cannot be created.", "quantifier": "every list of insertion requests, with any pattern of requests that are carried out, dropped because the edge is gone, or given up because the new interface segment cannot be created", "why_tests_cant": "The pairing of vertices and components is by position in two vectors; it is only visible when a request in the middle of the list is dropped or given up.", "anchors": ["dune/mmesh/grid/mmesh.hh: adapt_, insertComponentIds, markElementsAfterInsertion_"]}
{"id": "C151", "title": "Movement checks never queue corners of the domain", "statement": "ensureInterfaceMovement and ensureVertexMovement never queue a corner of the domain for removal and never make a straight boundary vertex a corner for later calls.", "quantifier": "every grid, every vector of shifts, every earlier state of the queue", "why_tests_cant": "The corner status is computed on first use, from whatever positions the vertices have at that moment, and then cached.", "anchors": ["dune/mmesh/grid/mmesh.hh: ensureInterfaceMovement, ensureVertexMovement", "dune/mmesh/remeshing/longestedgerefinement.hh: boundaryFlag, isRemoveable"]}
{"id": "C152", "title": "The + side of an interface element after adaptation", "statement": "Which of the adjacent elements is the + side of an interface element does not depend on how the interface element was obtained, also for elements made by adaptation.", "quantifier": "all valid grids in 2D and 3D with positively oriented elements, all interface elements, however obtained", "why_tests_cant": "all orders of insertion and all ways to reach the interface element", "anchors": ["dune/mmesh/interface/entity.hh: MMeshInterfaceGridEntity", "dune/mmesh/mmesh.hh: asIntersection, asInterfaceEntity", "dune/python/mmesh/utility.hh: Normals::bind"]}
{"id": "C153", "title": "Object streams can be used after they were copied from", "statement": "Copying and assigning object streams never lets two streams free the same buffer, never leaves a stream using freed memory and never loses contents, also if the source of a copy is used again.", "quantifier": "all sequences of construction, copy, assignment, write and destruction", "why_tests_cant": "all sequences", "anchors": ["dune/mmesh/misc/objectstream.hh: assign, copy constructor, destructor"]}
{"id": "C154", "title": "Parallel: interface communication at junctions of three processes", "statement": "Data gathered for an interface element on its owner reaches exactly that element on the processes where it is a ghost, also where interface elements of three processes meet at a vertex.", "quantifier": "all interfaces, distributions and process counts, including junctions", "why_tests_cant": "all interfaces and distributions", "anchors": ["dune/mmesh/misc/communication.hh", "dune/mmesh/misc/partitionhelper.hh: computeInterfacePartitions"]}
{"id": "C155", "title": "Intersection geometries of the interface conform", "statement": "For every intersection of an interface element with its neighbours: the geometry of the intersection is the geometry of the inside element after geometryInInside, and, if there is an outside element, also the geometry of the outside element after geometryInOutside; indexInOutside is the number of the common facet in the outside element. Points on the intersection therefore have the same coordinates seen from both sides, also at junctions.", "quantifier": "all interfaces in 2D and 3D, elements, intersections, vertex positions, vertex ids and local coordinates", "why_tests_cant": "all interfaces and vertex numberings: the numbering decides which of several swaps is taken", "anchors": ["dune/mmesh/interface/intersections.hh: geometry, geometryInInside, geometryInOutside, indexInOutside", "dune/mmesh/interface/geometry.hh: MMeshInterfaceGridGeometry", "dune/mmesh/interface/entity.hh: subEntity, operator=="]}
{"id": "C156", "title": "Boundary flag of a vertex", "statement": "When vertices are removed because of the movement of the mesh, the boundary flag of a vertex is 0 if it is inside of the domain; if it is on the boundary and has exactly two neighbours that are on the boundary, the flag is 1 unless the three vertices are on a line (up to an angle with sine 1e-8). It is defined for every vertex, and once computed it stays.", "quantifier": "all triangulations, vertices and vertex positions", "why_tests_cant": "all meshes and positions", "anchors": ["dune/mmesh/remeshing/longestedgerefinement.hh: boundaryFlag, atBoundary", "dune/mmesh/grid/entity.hh: boundaryFlag", "dune/mmesh/grid/mmesh.hh: ensureInterfaceMovement, ensureVertexMovement"]}
{"id": "C157", "title": "Corners of the domain have boundary flag 1", "statement": "The boundary flag of every vertex at which the boundary of the domain has a corner is 1, so that the vertex is not removed when the mesh is moved.", "quantifier": "all triangulations, vertices and vertex positions", "why_tests_cant": "all meshes and positions", "anchors": ["dune/mmesh/remeshing/longestedgerefinement.hh: boundaryFlag", "dune/mmesh/grid/mmesh.hh: ensureInterfaceMovement, ensureVertexMovement"]}
{"id": "C158", "title": "Parallel: elements are distributed evenly in 3D", "statement": "In 3D with P processes and N>=P elements the numbers of elements on two processes differ by at most one, and no process is without elements.", "quantifier": "all P, N and numbers of boundary facets", "why_tests_cant": "all P and N", "anchors": ["dune/mmesh/misc/partitionhelper.hh: setRanks"]}
{"id": "C159", "title": "Parallel: iteration over a partition visits exactly its entities", "statement": "On every process, iteration over the elements, interface elements or facets of a partition (interior, interior-border, overlap, overlap-front, all, ghost) visits exactly the entities present on the process whose partition type belongs to this partition, each once and in the order of the grid. Interior elements are those owned by the process, and every element is visited as interior on exactly one process; with one process all entities are interior.", "quantifier": "all meshes, numbers of processes, processes and partitions", "why_tests_cant": "all meshes, partitions and process counts", "anchors": ["dune/mmesh/grid/leafiterator.hh: MMeshLeafIteratorImp", "dune/mmesh/interface/leafiterator.hh: MMeshInterfaceGridLeafIteratorImp", "dune/mmesh/misc/partitionhelper.hh: contains, partitionType, leafInteriorBegin, leafInteriorEnd"]}
{"id": "C160", "title": "Parallel: facets and vertices of visited elements are visited", "statement": "On every process, the facets of an interior element are interior or border and those of a ghost are present. The same holds for vertices (edges) if the elements at the vertex are connected by facets, for the vertices of the interface in 2D and edges of the interface in 3D, and for vertices of the interface in 3D if the interface elements at the vertex are connected by edges. So iteration over interior and border entities visits all sub-entities of interior elements.", "quantifier": "all meshes, processes and entities", "why_tests_cant": "all meshes and partitions", "anchors": ["dune/mmesh/misc/partitionhelper.hh: computePartitions, computeInterfacePartitions, contains"]}
{"id": "C161", "title": "Parallel: vertices of interface elements on a process are present in 3D", "statement": "In 3D, every vertex of an interface element that a process owns is in some partition of this process, so that an iteration over vertices visits it.", "quantifier": "all meshes, processes and interface vertices", "why_tests_cant": "all meshes and partitions", "anchors": ["dune/mmesh/misc/partitionhelper.hh: computeInterfacePartitions", "dune/mmesh/interface/leafiterator.hh: MMeshInterfaceGridLeafIteratorImp"]}
{"id": "C162", "title": "ghostSize counts the ghosts of every codimension", "statement": "ghostSize(codim) is the number of ghost entities of this codimension on the process, for every codimension.", "quantifier": "all meshes, processes and codimensions", "why_tests_cant": "all meshes and codimensions", "anchors": ["dune/mmesh/grid/mmesh.hh: ghostSize"]}
{"id": "C163", "title": "ghostSize of elements, facets and vertices", "statement": "ghostSize(0), ghostSize(1) and ghostSize(dimension) of the bulk grid are the numbers of ghost elements, facets and vertices that an iteration over the ghost partition visits.", "quantifier": "all meshes and processes", "why_tests_cant": "all meshes and partitions", "anchors": ["dune/mmesh/grid/mmesh.hh: ghostSize"]}
{"id": "C164", "title": "Several removals of interface vertices in one adaptation", "statement": "Removing an interface vertex with exactly two interface elements joins its neighbours, also if earlier requests of the same call of adapt() created elements at the vertex (for example by removing its neighbour on the interface).", "quantifier": "all 2D grids, all sequences of requests in one call, all contents of uninitialised memory", "why_tests_cant": "the outcome depends on what is in the memory of elements created in the same call", "anchors": ["dune/mmesh/grid/mmesh.hh: adapt_, removeFromInterface_, isInterface", "dune/mmesh/interface/incidentiterator.hh: MMeshIncidentInterfaceElementsIteratorImp", "dune/mmesh/grid/common.hh: cgalFacetToDuneFacet", "dune/mmesh/cgal/defaults.hh: ElementInfo"]}
{"id": "C165", "title": "Removal of interface vertices at old elements", "statement": "If no element at an interface vertex was created by an earlier request of the same call of adapt(), whatever the earlier requests did elsewhere, its interface elements are found, each once and no others, and a vertex with exactly two of them is removed from the interface such that its neighbours are joined.", "quantifier": "all 2D grids, all sequences of requests in one call", "why_tests_cant": "all sequences of requests on all grids", "anchors": ["dune/mmesh/grid/mmesh.hh: adapt_, removeFromInterface_", "dune/mmesh/grid/common.hh: cgalFacetToDuneFacet", "dune/mmesh/grid/indexsets.hh: update"]}
{"id": "C166", "title": "Parallel: facets added to the interface have an index", "statement": "After addInterface(intersection) every element of the interface grid that is interior on a process has an index in the leaf index set of the interface grid on this process.", "quantifier": "all grids, all numbers of processes, all facets", "why_tests_cant": "all grids and distributions", "anchors": ["dune/mmesh/grid/mmesh.hh: addInterface", "dune/mmesh/misc/partitionhelper.hh: computeInterfacePartitions, partition", "dune/mmesh/interface/indexsets.hh: update", "dune/mmesh/interface/leafiterator.hh: MMeshInterfaceGridLeafIteratorImp"]}
{"id": "C167", "title": "Indices of interface elements after addInterface and loadBalance", "statement": "On one process all interface elements, old and new, have consecutive zero-based unique indices after addInterface. On several processes they have after loadBalance(): exactly those elements of the interface grid have an index whose inside or outside belongs to the process or that meet an interface element of the process.", "quantifier": "all grids, all numbers of processes, all facets", "why_tests_cant": "all grids and distributions", "anchors": ["dune/mmesh/grid/mmesh.hh: addInterface, loadBalance, update", "dune/mmesh/misc/partitionhelper.hh: distribute, computeInterfacePartitions", "dune/mmesh/interface/indexsets.hh: update"]}
{"id": "C168", "title": "Grids of the explicit factory in 2D can be circulated", "statement": "Let triangles be inserted into the explicit factory in 2D that are not degenerate, such that no edge belongs to more than two triangles, two triangles with a common edge lie on different sides of it, no vertex belongs to more than two boundary edges and the triangles at a vertex are connected through edges at this vertex. Then createGrid() finds all inserted elements and does not throw, and on the created grid incidentElements(vertex), incidentFacets(vertex) and incidentVertices(vertex) visit exactly the inserted elements, their edges and their other vertices at the vertex, each once; the circulators of CGAL come back to their start.", "quantifier": "all such meshes, whatever the order of the elements and the order of the vertices in an element, and all vertices", "why_tests_cant": "The factory sets the neighbour and vertex pointers by hand; whether following them runs through the whole fan of a vertex depends on the topology of the mesh, on the orientation of all elements and on the order of two maps.", "anchors": ["dune/mmesh/grid/explicitgridfactory.hh: createElement, addFacetToMap, createInfiniteCells, checkOccurenceOfAllElements, createGrid", "dune/mmesh/grid/incidentiterator.hh: MMeshIncidentIteratorImp"]}
{"id": "C169", "title": "Explicit factory: domains whose boundary touches itself", "statement": "For every conforming mesh of a connected domain in 2D, also if the boundary touches itself in a vertex (four boundary edges at a vertex), createGrid() of the explicit factory succeeds and incidentElements(vertex) visits all elements with this vertex.", "quantifier": "all conforming meshes of connected domains in 2D", "why_tests_cant": "The infinite faces at such a vertex are paired in the order of a map; the test meshes are convex domains or domains with a smooth boundary.", "anchors": ["dune/mmesh/grid/explicitgridfactory.hh: createInfiniteCells, checkOccurenceOfAllElements", "dune/mmesh/grid/incidentiterator.hh: MMeshIncidentIteratorImp"]}
{"id": "C170", "title": "Grids read from DGF files", "statement": "If the constructor of DGFGridFactory with the name of a file returns, then the file exists and is in the format, and there is a grid with exactly one element for every element of the file: the one with insertion index k has the vertices of the k-th element of the file, and the vertices are those of the file in this order. If the file does not exist or is not in the format, the constructor throws. The constructor with a stream gives the same grid for a stream in the format.", "quantifier": "all files and streams, whatever the order in which the elements are sorted; 2D and 3D", "why_tests_cant": "all files; the test reads one", "anchors": ["dune/mmesh/grid/dgfparser.hh: DGFGridFactory, generate", "dune/mmesh/grid/explicitgridfactory.hh: insertVertex, insertElement, createGrid"]}
{"id": "C171", "title": "DGF streams that are not in the format are reported", "statement": "If the stream that is passed to the constructor of DGFGridFactory is not in the DGF format, the constructor throws, as it does for a file.", "quantifier": "all streams that can be reset", "why_tests_cant": "the behaviour afterwards is undefined: a test may pass by chance", "anchors": ["dune/mmesh/grid/dgfparser.hh: DGFGridFactory(std::istream&), grid"]}
{"id": "C172", "title": "Parameters of a DGF file", "statement": "If a DGF file has parameters for elements or vertices, parameter(element) and parameter(vertex) return those of the element or vertex.", "quantifier": "all files with parameters, all elements and vertices", "why_tests_cant": "all files", "anchors": ["dune/mmesh/grid/dgfparser.hh: parameter, numParameters"]}
{"id": "C173", "title": "Insertion indices of boundary intersections", "statement": "insertionIndex(intersection) of the grid factories returns for a boundary intersection the number of the call of insertBoundarySegment that inserted it.", "quantifier": "all lists of boundary segments, both factories", "why_tests_cant": "all lists of segments", "anchors": ["dune/mmesh/grid/explicitgridfactory.hh: insertionIndex", "dune/mmesh/grid/implicitgridfactory.hh: insertionIndex", "dune/mmesh/grid/intersections.hh: boundaryId, boundarySegmentIndex"]}
{"id": "C174", "title": "Insertion indices of elements of the implicit factory, vertices first", "statement": "If vertices at different positions are inserted into the implicit factory and then elements, then insertionIndex of an element of the grid is k exactly when the k-th inserted element is the last one with the vertices of the element; in particular two elements never have the same insertion index.", "quantifier": "all lists of points and elements, whatever triangulation CGAL makes, 2D and 3D", "why_tests_cant": "all clouds of points and all triangulations", "anchors": ["dune/mmesh/grid/implicitgridfactory.hh: insertVertex, insertElement, isElement, insertionIndex"]}
{"id": "C175", "title": "Insertion indices of all elements of the implicit factory", "statement": "After vertices and the elements of a triangulation were inserted into the implicit factory, in any order, each element of the grid has as insertion index the number of an inserted element with its vertices.", "quantifier": "all lists of calls", "why_tests_cant": "the member that is read is not initialised; its value is arbitrary", "anchors": ["dune/mmesh/grid/implicitgridfactory.hh: insertElement, insertionIndex", "dune/mmesh/cgal/defaults.hh: ElementInfo"]}
{"id": "C176", "title": "Grids read from msh files", "statement": "Let an msh file describe a conforming mesh of simplices in which no facet is named twice. Then a grid can be read from it. It has exactly one element for every element of full dimension in the file: the one with insertion index k has the nodes of the k-th and its last tag as domain marker. A facet named in the file is a boundary segment of the grid if it belongs to exactly one element of the file, otherwise it is an interface segment whose marker is the last tag; no other facet is a boundary or interface segment. If a facet is named twice, no grid is read.", "quantifier": "all files that describe a conforming mesh, in debug and release builds, all orders of iteration over the hash map of facets and all ways of sorting elements with equal centres", "why_tests_cant": "the reader, the three maps of the factory and the search for facets with one element interact for every mesh and every order of the lines of the file; tests read a few files", "anchors": ["dune/mmesh/grid/gmshgridfactory.hh: generate", "dune/mmesh/grid/explicitgridfactory.hh: insertElement, insertInterface, insertBoundarySegment, createGrid"]}
{"id": "C177", "title": "Tags of boundary facets in msh files", "statement": "If a facet on the boundary is named in an msh file with a tag, then boundaryId of the intersection on this facet is the tag.", "quantifier": "all msh files and all facets on the boundary", "why_tests_cant": "concerns every file; no test compares tags with boundary ids", "anchors": ["dune/mmesh/grid/gmshgridfactory.hh: generate", "dune/mmesh/grid/intersections.hh: boundaryId"]}
{"id": "C178", "title": "Elements of msh files that are not simplices are rejected", "statement": "If an msh file has an element of full dimension that is not a simplex, reading it is reported as an error.", "quantifier": "all msh files with quadrilaterals (2D) or hexahedra (3D)", "why_tests_cant": "depends on the build type and on every possible file; tests read triangles and tetrahedra only", "anchors": ["dune/mmesh/grid/gmshgridfactory.hh: obtainGeometryType", "dune/mmesh/grid/explicitgridfactory.hh: insertElement"]}
{"id": "C179", "title": "Msh files passed as streams", "statement": "The constructor of GmshGridFactory with a stream reads the same grid as the one with the name of a file with this content.", "quantifier": "all msh files that describe a mesh", "why_tests_cant": "undefined behaviour: a test may pass by chance", "anchors": ["dune/mmesh/grid/gmshgridfactory.hh: GmshGridFactory(std::istream&)"]}
{"id": "C180", "title": "adapt() reports whether the triangulation changed", "statement": "adapt() returns true exactly when the triangulation was changed.", "quantifier": "all sets of insertion and removal requests, including stale edges", "why_tests_cant": "all request sets", "anchors": ["dune/mmesh/grid/mmesh.hh: adapt, adapt_"]}
{"id": "C181", "title": "Concurrent interface queries", "statement": "isInterface may be called from several threads on a constant grid: each call returns the same answer as a call on its own.", "quantifier": "all interleavings of two or more calls", "why_tests_cant": "schedules", "anchors": ["dune/mmesh/grid/mmesh.hh: isInterface(const InterfaceElement&)"]}
{"id": "C182", "title": "Components in whatever order the requests were made", "statement": "When adapt is called with pending requests, building the connected components is defined, and the component of each request contains exactly the old elements in the conflict zones of the requests linked with it, each once, in whatever order the requests were made.", "quantifier": "all grids, all sets and orders of requests", "why_tests_cant": "depends on the order of requests relative to the order of iteration; the failing orders read an indeterminate pointer, which may appear to work", "anchors": ["dune/mmesh/grid/mmesh.hh: adapt_, buildConnectedComponents_", "dune/mmesh/grid/connectedcomponent.hh: MMeshConnectedComponent, hasEntity, update"]}
{"id": "C183", "title": "A refinement request splits the edge it was made for or nothing", "statement": "When adapt() carries out a request to refine an edge, the edge that is split is the one for which the request was made; a request whose edge is gone is dropped.", "quantifier": "every triangulation, every list of requests in every order, repeated calls of adapt()", "why_tests_cant": "The edge is stored as a handle that designates another edge after a neighbouring edge was split; the check compares vertex ids, and whether it can be fooled depends on uninitialised memory and on cached values.", "anchors": ["dune/mmesh/grid/mmesh.hh: adapt_, insertInEdge_, insertInInterface_", "dune/mmesh/grid/entity.hh: MMeshEntity::id", "dune/mmesh/cgal/defaults.hh: VertexInfo"]}
{"id": "C184", "title": "ensureInterfaceMovement false means the interface can be moved, in every situation", "statement": "If ensureInterfaceMovement(shifts) returns false, every cell has positive volume after moveInterface(shifts).", "quantifier": "every grid with positive cells, every vector of shifts, every history of earlier requests", "why_tests_cant": "The answer is false also when a degenerate cell was seen but nothing new was queued; that depends on earlier requests and on where crossing lines meet.", "anchors": ["dune/mmesh/grid/mmesh.hh: ensureInterfaceMovement, moveInterface"]}
{"id": "C185", "title": "The component of a new element can be queried in debug builds", "statement": "During an adaptation the query of the component of a new element (as used for its father) returns the component of its request, in debug builds too.", "quantifier": "all sets and orders of requests", "why_tests_cant": "depends on which requests overlap and in which order they were made", "anchors": ["dune/mmesh/grid/mmesh.hh: getConnectedComponent, buildConnectedComponents_"]}
{"id": "C186", "title": "Twists of intersections", "statement": "The twists returned by the twist utility of the grid are the twists of every intersection: mapping the corners of the intersection's face by the returned twist gives the corners in the numbering of the inside and of the outside element, for the mesh in two and three dimensions and for the interface grid, and no other twist does.", "quantifier": "all intersections of all meshes and interface grids", "why_tests_cant": "needs every pair of neighbouring elements and every numbering of their vertices", "anchors": ["dune/mmesh/misc/twistutility.hh: TwistUtility::twistInSelf, twistInNeighbor", "dune/mmesh/grid/intersections.hh", "dune/mmesh/interface/intersections.hh"]}
{"id": "C187", "title": "Refinement keeps a conforming mesh of the same domain", "statement": "Refining edges of the mesh at a position strictly between their end points (in particular the longest edges of marked elements), and inserting vertices at positions inside elements, in any number and order within one adapt(), gives a conforming mesh (no degenerate elements, no hanging nodes, no overlap) that covers exactly the same domain; elements keep their orientation, the total volume does not change, and all old vertices stay where they were. Each request must be carried out for the edge it was made for (C59, C183).", "quantifier": "all conforming simplicial meshes in all dimensions and all lists of requests", "why_tests_cant": "the number of meshes, requests and their interactions is infinite", "anchors": ["dune/mmesh/grid/mmesh.hh: adapt, refineEdge, insertVertexInCell, mark, insertInEdge_, insertInCell_", "dune/mmesh/remeshing/longestedgerefinement.hh: refinement"]}
{"id": "C188", "title": "Refinement keeps a proper mesh for all arguments", "statement": "Whatever the argument where of refineEdge and the position passed to insertVertexInCell, the mesh after adapt() is conforming, has no degenerate or inverted elements and covers the same domain.", "quantifier": "all meshes, edges, values of where and positions", "why_tests_cant": "the arguments range over all numbers and points", "anchors": ["dune/mmesh/grid/mmesh.hh: refineEdge, insertVertexInCell, insertInEdge_, insertInCell_"]}
{"id": "C189", "title": "Coarsening keeps a conforming mesh of the same domain", "statement": "Removing vertices that are not on the boundary, in any number and order within one adapt(), keeps a conforming mesh that covers exactly the same domain; exactly the removed vertices are gone and the others are not moved. The same holds for any sequence of adaptations with insertions and removals.", "quantifier": "all conforming meshes, all lists of removed inner vertices, all triangulations with which the holes are filled, all sequences of adaptations", "why_tests_cant": "holes of every shape and every order of removals occur", "anchors": ["dune/mmesh/grid/mmesh.hh: adapt, removeVertex, removeFromInterface_", "dune/mmesh/cgal/triangulationwrapper.hh: removeAndGiveNewElements, remeshHoleConstrained"]}
{"id": "C190", "title": "Removing a vertex keeps the domain for every vertex", "statement": "Removing any vertex with removeVertex and adapt() keeps the domain covered by the mesh.", "quantifier": "all meshes and vertices", "why_tests_cant": "depends on the position of the vertex", "anchors": ["dune/mmesh/grid/mmesh.hh: removeVertex, adapt", "dune/mmesh/cgal/triangulationwrapper.hh: removeAndGiveNewElements"]}
{"id": "C191", "title": "A checked movement keeps a conforming mesh of the same domain", "statement": "In every dimension: if no vertex on the boundary is moved and all elements have positive volume after the movement, then the moved mesh is conforming, elements do not overlap, and it covers the same domain with the same total volume. In particular, in two dimensions this holds for moveInterface after ensureInterfaceMovement has returned false with nothing queued and no crossing discarded, and for moveVertices after ensureVertexMovement has returned false if every element has a removable vertex; in three dimensions it holds for both whenever the ensure function does not throw, and then the ensure function returns false and changes nothing.", "quantifier": "all conforming simplicial meshes of any dimension, all shifts, exact arithmetic", "why_tests_cant": "The functions check each element alone; that this excludes overlaps of elements far apart is a statement about all meshes and movements.", "anchors": ["dune/mmesh/grid/mmesh.hh: ensureInterfaceMovement, ensureVertexMovement, moveInterface, moveVertices, signedVolume_"]}
{"id": "C192", "title": "Positive areas exclude overlaps for every movement", "statement": "If all elements have positive area after a movement of vertices, boundary vertices included, no two elements overlap.", "quantifier": "all conforming meshes and shifts", "why_tests_cant": "Depends on the movement of the boundary as a whole.", "anchors": ["dune/mmesh/grid/mmesh.hh: ensureVertexMovement, moveVertices"]}
{"id": "C193", "title": "Refinement is nested", "statement": "After any number of refinement requests for edges (0 < where < 1) or points inside elements, and after globalRefine(n) for every n, every element of the new grid lies in an element of the old grid, every old element is covered by the new elements that lie in it, and (globalRefine) the grid stays conforming with the same domain and the same old vertices. One step of globalRefine makes at most one request per edge, the requests do not hinder each other, and if none is dropped every element none of whose longest edges is an interface edge is replaced.", "quantifier": "all conforming meshes of any dimension, sequences of requests, numbers of steps, sets of interface edges", "why_tests_cant": "Ranges over all meshes and histories of insertions.", "anchors": ["dune/mmesh/grid/mmesh.hh: globalRefine, refineEdge, insertVertexInCell, adapt", "dune/mmesh/remeshing/longestedgerefinement.hh: refinement"]}
{"id": "C194", "title": "globalRefine refines every element", "statement": "globalRefine(n) with n > 0 refines every element of the grid.", "quantifier": "all conforming meshes, interfaces, n > 0", "why_tests_cant": "Depends on the geometry of every element and of the interface.", "anchors": ["dune/mmesh/grid/mmesh.hh: globalRefine, adapt"]}
{"id": "C195", "title": "Adaptation with a data handle transfers piecewise constant data correctly from the requests to the values", "statement": "In 2D, adapt(handle) with the handle of a piecewise constant function, for any insertions into edges (with 0 < where < 1) and inside elements and any removals of vertices that are not on the boundary: every new element has a connected component that contains every old element overlapping with it, each once; afterwards every element has the average over it of the function before; the integral of the function does not change; values stay within the range of the values before; an element inside an old element has its value. (Exact arithmetic, no tolerances; adapt does not fail while building components; ids of elements computed before new vertices are numbered do not collide.)", "quantifier": "all conforming meshes, lists of insertions and removals, results of the removals allowed by CGAL, orders of iteration, values", "why_tests_cant": "It depends on how the conflict zones of all requests are linked and on every way in which the mesh changes; a test sees a few adaptations.", "anchors": ["dune/mmesh/grid/mmesh.hh: adapt, preAdapt, adapt_, markElementsForInsertion_, markElementsForRemoval_, buildConnectedComponents_, getConnectedComponent, markElementAfterInsertion_, markElementsAfterRemoval_", "dune/mmesh/grid/cutsettriangulation.hh", "dune/mmesh/grid/connectedcomponent.hh"]}
{"id": "C196", "title": "Any number of adaptations and movements", "statement": "In 2D, starting from a proper triangulation, after any number of calls of adapt(handle) (requests as in C195) and of movements to positions with positive areas that leave the boundary where it is: the grid is a proper triangulation of the same domain (conforming, counter-clockwise, no element twice), and piecewise constant data has not left the range of the values at the start; without movements the integral of the data is what it was at the start.", "quantifier": "all proper triangulations, values, sequences of adaptations and movements of any length", "why_tests_cant": "Errors could build up over many cycles; a test runs a few.", "anchors": ["dune/mmesh/grid/mmesh.hh: adapt, adapt_, moveVertices, moveInterface"]}
{"id": "C197", "title": "Adaptation of the interface with a data handle transfers piecewise constant data correctly from the requests to the values", "statement": "In 2D, let the interface be proper (elements meet only in common vertices), and let the requests be refinements of interface edges (0 < where < 1, each edge at most once), any refinements of the bulk, and removals of vertices, where a removed vertex of the interface has exactly two interface elements, lies between their other ends on a straight line, belongs to no element that is refined, and shares no element with another removed vertex. After adapt of the grid and adapt(handle) of the interface grid with the handle of a piecewise constant function: the interface is proper and consists of the same points; an element inside an old element has its value; the element that joins two old elements has their average weighted by length; the integral over the interface does not change; values stay within their range.", "quantifier": "all proper interfaces, lists of insertions and removals as described, results of the insertions and removals allowed by CGAL, orders of iteration, values", "why_tests_cant": "It depends on which old elements are recorded for every new interface element by both loops of adapt, in every combination of requests.", "anchors": ["dune/mmesh/grid/mmesh.hh: adapt_, insertVertexInInterface_, removeFromInterface_, refineEdge, removeVertex", "dune/mmesh/interface/grid.hh: adapt, markAsRefined, postAdapt", "dune/mmesh/interface/connectedcomponent.hh", "dune/mmesh/interface/entity.hh: isNew, connectedComponent"]}
{"id": "C198", "title": "Any number of adaptations and movements of the interface with its data", "statement": "In 2D, starting from a proper interface, after any number of adaptations as in C197, each followed by adapt(handle) of the interface grid, and of movements of vertices that leave the interface proper: the interface is proper, and piecewise constant data on it has not left the range of the values at the start; without movements it consists of the same points, and the integral of the data over it is what it was at the start.", "quantifier": "all proper interfaces, values, sequences of adaptations and movements of any length", "why_tests_cant": "Errors could build up over many cycles; a test runs a few.", "anchors": ["dune/mmesh/grid/mmesh.hh: adapt, adapt_, moveInterface", "dune/mmesh/interface/grid.hh: adapt, markAsRefined, postAdapt"]}
{"id": "C199", "title": "Value on an element added to the interface", "statement": "In 2D, after addToInterface(vertex, p), adapt of the grid and adapt(handle) of the interface grid with the handle of a piecewise constant function, the elements that were there have their values; the added element has the value of the interface element at the vertex that it continues if that one is longer, and otherwise that value times the length of the projection of the old element to the new one divided by the length of the new one.", "quantifier": "all interfaces, vertices, points, values, orders of iteration", "why_tests_cant": "It depends on lengths and angles; a test samples some.", "anchors": ["dune/mmesh/grid/mmesh.hh: addToInterface, adapt_", "dune/mmesh/interface/grid.hh: adapt, markAsRefined", "dune/mmesh/interface/connectedcomponent.hh"]}
{"id": "C200", "title": "An element added to the interface gets the value of the element it continues, whatever its length", "statement": "In 2D, after addToInterface(vertex, p), adapt of the grid and adapt(handle) of the interface grid with the handle of a piecewise constant function, the added element has the value of the interface element at the vertex that it continues.", "quantifier": "all interfaces, vertices, points, values", "why_tests_cant": "It depends on lengths and angles; a test samples some.", "anchors": ["dune/mmesh/grid/mmesh.hh: addToInterface, adapt_", "dune/mmesh/interface/grid.hh: adapt"]}
{"id": "C201", "title": "Any number of refinements and movements in three dimensions", "statement": "In 3D, starting from a conforming mesh whose elements have positive volume and occur once, after any number of calls of adapt() (requests as in C187) and of movements of the interface or of all vertices by shifts that are zero on the boundary and for which ensureInterfaceMovement or ensureVertexMovement did not throw: the grid is again such a mesh, it covers the same domain with the same total volume, and no vertex is lost.", "quantifier": "all such meshes, sequences of refinements and movements of any length, exact arithmetic", "why_tests_cant": "Errors could build up over many cycles; a test runs a few.", "anchors": ["dune/mmesh/grid/mmesh.hh: adapt, adapt_, ensureInterfaceMovement, ensureVertexMovement, moveInterface, moveVertices"]}
{"id": "C202", "title": "The sides of the interface are the parts of the domain it separates", "statement": "Going from element to element through intersections for which isInterface is false reaches exactly the elements that lie in the same part of the domain without the interface: two elements are connected in this way if and only if their interiors can be joined inside the domain without touching the interface. Hence two conforming grids of the same domain whose interfaces consist of the same points have the same sides: the regions they fill coincide and their number is equal, however the two grids are meshed.", "quantifier": "every conforming mesh of positively oriented elements in any dimension, every set of its facets as interface, every pair of elements", "why_tests_cant": "The meeting of elements at edges and vertices (also at vertices of the interface) has to be excluded as a leak for every mesh and every interface; a test looks at particular meshes.", "anchors": ["dune/mmesh/grid/mmesh.hh: isInterface", "dune/mmesh/grid/intersections.hh: MMeshLeafIntersection::outside, neighbor", "dune/mmesh/grid/mmesh.hh: addInterface"]}
{"id": "C203", "title": "Adaptation and movement keep the sides of the interface", "statement": "In two dimensions, after any sequence of insertions of vertices into edges (of the interface or not) and elements and of removals of inner vertices (on the interface: vertices with two interface elements in a straight line), two points are on the same side of the interface if and only if they were before, and the sides fill the same regions. If the grid is also moved in between (all areas positive, boundary fixed), the number of sides is unchanged.", "quantifier": "every valid grid with interface, every sequence of insertions, removals and movements, every pair of points", "why_tests_cant": "A leak could arise from any combination of operations on mesh and interface; tests only try some.", "anchors": ["dune/mmesh/grid/mmesh.hh: adapt_, insertInInterface_, removeFromInterface_, moveInterface, moveVertices, isInterface", "dune/mmesh/cgal/triangulationwrapper.hh: remeshHoleConstrained"]}
{"id": "C204", "title": "Removing an interface vertex does not join two sides", "statement": "After removing a vertex of the interface that belongs to exactly two interface elements, elements that were on different sides of the interface are still on different sides.", "quantifier": "every valid grid, every interface vertex with exactly two interface elements", "why_tests_cant": "It depends on the shape of the interface near the vertex.", "anchors": ["dune/mmesh/grid/mmesh.hh: removeFromInterface_"]}
{"id": "C205", "title": "Functions created at run time belong to the types of their arguments", "statement": "skeleton(f, grid), trace(u, igrid), interfaceIndicator(igrid, grid) and monolithicSolve work with the C++ class for the types of the given grids, functions and schemes (trace: with the inner side for '+' and the outer side for '-'), whatever was created before in the same process, provided no two of the texts from which module names are computed have the same hash.", "quantifier": "all histories of calls of these functions in one process, all types", "why_tests_cant": "all histories and all types (names are concatenations of type names)", "anchors": ["python/dune/mmesh/_skeletontrace.py: skeleton, trace", "python/dune/mmesh/_utility.py: interfaceIndicator", "python/dune/mmesh/_solve.py: monolithicSolve"]}
{"id": "C206", "title": "The argument iterative chooses the backend", "statement": "monolithicSolve(iterative=True) uses the iterative parallel implementation of the Jacobian and monolithicSolve(iterative=False) the direct one.", "quantifier": "all histories of calls in one process, all types", "why_tests_cant": "histories of calls in one process", "anchors": ["python/dune/mmesh/_solve.py: monolithicSolve"]}
{"id": "C207", "title": "A callback that communicates", "statement": "If all processes call monolithicSolve(iterative=True), they call the callback equally often between the operations that involve all processes, so that the callback may communicate.", "quantifier": "all distributions of the grid and the interface, numbers of degrees of freedom and of Newton steps", "why_tests_cant": "all distributions of the grid", "anchors": ["dune/python/mmesh/jacobian_iterative.hh: update, assembleB, assembleC", "python/dune/mmesh/_solve.py: monolithicSolve"]}
{"id": "C208", "title": "Adding a facet to the interface splits at most one side", "statement": "addInterface(intersection) never joins sides of the interface: elements that can be reached from each other without crossing the interface after the call could be before. Sides that contain neither of the two elements at the facet are unchanged. The number of sides stays or grows by one; it grows by one exactly if the facet was not in the interface, lies between two elements, and after the call one of them cannot be reached from the other. A facet on the boundary separates nothing. Along any sequence of adaptations, movements and addInterface the number of sides does not decrease.", "quantifier": "all conforming meshes in every dimension, all interfaces made of facets, all added facets; all histories in 2D", "why_tests_cant": "The claim is about all meshes and interfaces, whatever shape the interface has.", "anchors": ["dune/mmesh/grid/mmesh.hh: addInterface, isInterface", "dune/mmesh/grid/intersections.hh"]}
{"id": "C209", "title": "Interface and its sides in three dimensions", "statement": "In 3D isInterface(edge) is true exactly for the edges of interface facets. Hence refinement of marked elements (globalRefine), refineEdge for other edges and insertion of vertices inside elements leave the interface as it is: the same facets at the same place, whose sides are the same parts of the domain. Together with movements and addInterface, in any number and order, interface segments stay facets of the mesh and the number of sides does not decrease; it stays the same if nothing is added to the interface, and addInterface adds at most one.", "quantifier": "all conforming meshes with interfaces made of facets, all lists of requests off the interface, all histories", "why_tests_cant": "All meshes, interfaces and histories; the sides are a global notion.", "anchors": ["dune/mmesh/grid/mmesh.hh: isInterface(Edge), adapt, globalRefine, refineEdge, insertVertexInCell, addInterface"]}
{"id": "C210", "title": "Which elements are new and which might vanish after adapt()", "statement": "In 2D: after adapt() and before postAdapt(), isNew() is true exactly for the elements that the mesh did not contain before; adapt() flags with mightVanish() exactly the elements at which something was asked for (an edge to be split, a vertex to be removed, a point to be inserted), and every element that is gone afterwards is among them. An element at which nothing was asked for stays and is not new.", "quantifier": "all triangulations, all lists of insertions and removals, all runs of adapt()", "why_tests_cant": "All meshes and combinations of overlapping requests.", "anchors": ["dune/mmesh/grid/mmesh.hh: adapt_, markElementsForInsertion_, markElementForInsertion_, markElementsForRemoval_, markElementsAfterInsertion_, markElementsAfterRemoval_", "dune/mmesh/grid/entity.hh: isNew, mightVanish"]}
{"id": "C211", "title": "mightVanish() announces before adapt() which elements vanish", "statement": "An element for which mightVanish() is false when adapt() is called is still present afterwards, as the DUNE grid interface guarantees.", "quantifier": "all triangulations and requests", "why_tests_cant": "A statement about all meshes and requests.", "anchors": ["dune/mmesh/grid/mmesh.hh: preAdapt, adapt_", "dune/mmesh/grid/entity.hh: mightVanish"]}
{"id": "C212", "title": "Elements of the leaf grid view are leaves", "statement": "isLeaf() is true for every element that an iteration over the leaf grid view gives. Between adapt() and postAdapt() this holds exactly for the elements that were there before.", "quantifier": "all triangulations and requests", "why_tests_cant": "A statement about all states between adapt() and postAdapt().", "anchors": ["dune/mmesh/grid/entity.hh: isLeaf", "dune/mmesh/interface/entity.hh: isLeaf", "dune/mmesh/grid/mmesh.hh: adapt, postAdapt"]}
{"id": "C213", "title": "Movement of the mesh on several processes", "statement": "Any number of calls of moveVertices and moveInterface, where all processes pass the same displacement for the same vertex, never leave the vectors that are passed. After calls of moveVertices, every vertex of every element that a process has (its own elements and its ghosts) is where it is in a serial run, hence two processes that have an element see it at the same place. After calls of both, the same holds for the vertices of the interface elements that a process has and for the vertices that are not on the interface.", "quantifier": "all meshes and partitions, all processes, all finite sequences of calls and all displacements", "why_tests_cant": "Each process writes only the vertices that it has; that this is enough depends on the partition and on the neighbourhood of every vertex.", "anchors": ["dune/mmesh/grid/mmesh.hh: moveVertices, moveInterface", "dune/mmesh/grid/leafiterator.hh: MMeshLeafIteratorImp", "dune/mmesh/interface/leafiterator.hh: MMeshInterfaceGridLeafIteratorImp", "dune/mmesh/misc/partitionhelper.hh: computePartitions, computeInterfacePartitions"]}
{"id": "C214", "title": "moveInterface moves the interface vertices on all processes", "statement": "After moveInterface, with the same displacements on all processes, all processes that have an element see its vertices at the same place.", "quantifier": "all meshes and partitions, all processes, all displacements", "why_tests_cant": "It fails only if a process has elements at an interface vertex but none of the interface elements there, as at a tip on the boundary of a partition.", "anchors": ["dune/mmesh/grid/mmesh.hh: moveInterface", "dune/mmesh/interface/leafiterator.hh: MMeshInterfaceGridLeafIteratorImp"]}
{"id": "C215", "title": "Distance function in 3D", "statement": "In 3D the value stored for an interior vertex is at least its distance to the interface elements of the process (if this is at most 10^50), exceeds it by at most 0.29 times the length of the longest edge of the nearest interface element, and is zero exactly for the vertices on the interface.", "quantifier": "all points and interfaces in 3D", "why_tests_cant": "A bound for all coordinates and shapes of interface elements.", "anchors": ["dune/mmesh/remeshing/distance.hh: computeDistance, handleFacet, update"]}
{"id": "C216", "title": "The distance function is exact in 3D", "statement": "In 3D the value stored for an interior vertex is its distance to the interface.", "quantifier": "all points and interfaces in 3D", "why_tests_cant": "all coordinates and numbers of elements", "anchors": ["dune/mmesh/remeshing/distance.hh: computeDistance"]}
{"id": "C217", "title": "Coupling of bulk and interface functions on several processes", "statement": "A process has the elements on both sides of each interface element it owns, and the interface elements on the facets of each element it owns, so traces and skeleton functions can be evaluated there. With an array that has one row for each vertex of the interface grid of the process, interfaceEdgeMovement takes at each interface element of the process the rows of its vertices, different vertices have different rows, and edgeMovement takes the same rows at the corners of an element whose interface vertices belong to the interface grid of the process, and zero at the corners that are not on the interface.", "quantifier": "all meshes, interfaces and partitions in 2D and 3D, all processes, all arrays", "why_tests_cant": "It must hold for every partition and for every position of the interface in it.", "anchors": ["python/dune/mmesh/_utility.py: edgeMovement, interfaceEdgeMovement", "dune/mmesh/interface/indexsets.hh: update, index", "dune/mmesh/grid/partitionhelper.hh: computeInterfacePartitions"]}
{"id": "C218", "title": "edgeMovement works on every process", "statement": "On each process, edgeMovement(grid, shifts) has a value on each element that the process owns, if shifts has one row for each vertex of the interface grid of the process.", "quantifier": "all meshes, interfaces and partitions, all processes", "why_tests_cant": "It fails only if a process owns an element at an interface vertex but has none of the interface elements there.", "anchors": ["python/dune/mmesh/_utility.py: edgeMovement", "dune/mmesh/interface/indexsets.hh: index"]}
{"id": "C219", "title": "Displacements from lists and contiguous arrays", "statement": "edgeMovement(grid, shifts) and interfaceEdgeMovement(igrid, shifts) use as displacement number i the i-th vector of a list, or the i-th row of a contiguous array with one column for each coordinate. At a corner on the interface, edgeMovement has the entries of the row of this vertex, at the other corners it is zero.", "quantifier": "all lists and contiguous arrays, all dimensions, all meshes", "why_tests_cant": "It must hold for all sizes, contents and positions of the array in memory.", "anchors": ["python/dune/mmesh/_utility.py: edgeMovement, interfaceEdgeMovement"]}
{"id": "C220", "title": "Displacements from arbitrary arrays", "statement": "edgeMovement and interfaceEdgeMovement use the rows of every numpy array of doubles with one column for each coordinate, also if it is a transposed array or a part of another array.", "quantifier": "all arrays", "why_tests_cant": "It fails only for arrays with unusual strides.", "anchors": ["python/dune/mmesh/_utility.py: edgeMovement, interfaceEdgeMovement"]}
{"id": "C221", "title": "Repeated refinement in 3D ends", "statement": "Repeating markElements() and adapt() in 3D, as long as markElements() returns true, with an indicator that permits the same maximal edge length everywhere (factor 1), ends if every requested edge is still found, and then no edge of the grid is longer than the permitted maximum. If it does not end, then from some repetition on, adapt() drops the request for a longest edge of the grid every time.", "quantifier": "all grids and interfaces, all maximal lengths, all distances and sizes, any number of repetitions", "why_tests_cant": "Termination for all grids cannot be tested; halving an edge also creates new edges that may be longer than permitted.", "anchors": ["dune/mmesh/grid/mmesh.hh: markElements, adapt, adapt_", "dune/mmesh/remeshing/ratioindicator.hh: RatioIndicator", "dune/mmesh/remeshing/longestedgerefinement.hh: refinement"]}
{"id": "C222", "title": "Marked elements lead to changes", "statement": "If markElements() returns true, adapt() has an edge to refine or a vertex to remove, so that repeating both until markElements() returns false makes progress every time.", "quantifier": "all grids, interfaces and indicators that the grid sets up itself", "why_tests_cant": "It fails only for interface elements that are marked but have no removable vertex.", "anchors": ["dune/mmesh/grid/mmesh.hh: markElements, adapt", "dune/mmesh/remeshing/longestedgerefinement.hh: coarsening, isRemoveable", "dune/mmesh/remeshing/ratioindicator.hh: RatioIndicator"]}
{"id": "C223", "title": "Sizes of the index sets by geometry type", "statement": "For every geometry type of the grid, indexSet.size(type) is the number of simplices of this type in the grid, each counted once however many elements share it; types(codim) is the type of the simplices of dimension dim - codim, and the size of types that are not simplices is zero. This holds for the bulk grid in 2D and 3D and for the interface grid.", "quantifier": "all meshes and interfaces, all geometry types of the grid, any previous contents of the index set", "why_tests_cant": "It must hold for all meshes and all orders of iteration.", "anchors": ["dune/mmesh/grid/indexsets.hh: size, types, update", "dune/mmesh/interface/indexsets.hh: size, types, update"]}
{"id": "C224", "title": "Sizes of types of higher dimension, copies of the index set", "statement": "indexSet.size(type) is zero for types of simplices of a higher dimension than the grid, and a copy of an index set returns the same indices.", "quantifier": "all index sets, types and entities", "why_tests_cant": "The undefined access may return zero by chance.", "anchors": ["dune/mmesh/grid/indexsets.hh: size, MMeshLeafIndexSet(const MMeshLeafIndexSet&)", "dune/mmesh/interface/indexsets.hh: size"]}
{"id": "C225", "title": "Refinement keeps the Euler number", "statement": "Refinement of edges and insertion of vertices add one vertex per request carried out and one element for every element at a refined edge, and the number of vertices minus edges plus triangles (minus tetrahedra) reported by the grid does not change, in 2D and 3D, nor does it for the interface.", "quantifier": "all grids, all lists of requests, whichever of them are carried out or dropped, all numbers of refinements", "why_tests_cant": "A test counts the entities of a few grids after a few steps; an edge or face lost or counted twice in a rare configuration at the boundary would not be seen.", "anchors": ["dune/mmesh/grid/mmesh.hh: adapt, refineEdge, insertVertexInCell", "dune/mmesh/grid/indexsets.hh: size"]}
{"id": "C226", "title": "Refinement on several processes agrees with a serial run on own elements in 2D", "statement": "In a 2D grid on several processes, when the same elements are marked for refinement on all processes that have them, adapt() divides the interior elements of every process exactly as a serial run does, and the pieces of the interior elements of all processes together are the elements of the refined serial grid. In any dimension this holds for every element such that all elements at its edges are present on the process.", "quantifier": "all conforming grids, distributions of elements, marks and numbers of processes, all orders in which elements and requests are visited", "why_tests_cant": "A test compares a few grids on a few processes; an element at the border of two processes may be refined differently on the two only for certain marks and distributions.", "anchors": ["dune/mmesh/grid/mmesh.hh: adapt, preAdapt, loadBalance", "dune/mmesh/misc/partitionhelper.hh: distribute, computePartitions", "dune/mmesh/remeshing/longestedgerefinement.hh: refinement"]}
{"id": "C227", "title": "Grids of several processes after adapt()", "statement": "After adapt() on several processes, a ghost element is a copy of the elements on its owner, the interior elements of all processes make up the grid, a vertex id stands for the same vertex on all processes, and in 3D interior elements are divided as in a serial run.", "quantifier": "all grids, distributions and marks", "why_tests_cant": "The difference depends on which elements are marked near the border of two processes.", "anchors": ["dune/mmesh/grid/mmesh.hh: adapt, loadBalance", "dune/mmesh/misc/partitionhelper.hh: distribute", "dune/mmesh/grid/mmesh.hh: setIds"]}
{"id": "C228", "title": "Loops over the intersections of an element", "statement": "A loop over the intersections of an element ends and visits every facet at most once. For elements that are not ghosts it visits all dim + 1 facets, and indexInInside() takes each value once. On several processes a facet of an element of the process is visited exactly if one of its sides is interior (at the boundary: if the element is), the element outside of a visited intersection always belongs to the grid of the process, and an intersection visited from one side is visited from the other side.", "quantifier": "all grids, elements, distributions over processes and orders of vertex ids", "why_tests_cant": "A test visits a few grids; skipped facets of ghosts and neighbours that are not on the process depend on the distribution of the elements.", "anchors": ["dune/mmesh/grid/intersectioniterator.hh: MMeshLeafIntersectionIterator", "dune/mmesh/grid/intersections.hh: indexInInside, outside", "dune/mmesh/misc/partitionhelper.hh: computePartitions"]}
{"id": "C229", "title": "Finite volume sums over the intersections are conservative", "statement": "When a scheme adds, for all interior elements and all their intersections, a numerical flux that changes its sign with the side (depending on integrationOuterNormal() and the values inside and outside), the sum over all elements of all processes is the sum of the fluxes at the boundary of the domain: every facet between two elements is met exactly once from each side, also across processes, with opposite normals. For a constant state and a consistent flux the sum over the intersections of an element away from the boundary is zero.", "quantifier": "all grids in 2D and 3D, all distributions over any number of processes, all numerical fluxes and values", "why_tests_cant": "Conservation in a test run shows up to rounding for one mesh and one flux; a facet met twice or not at all at the border of two processes depends on the distribution.", "anchors": ["dune/mmesh/grid/intersectioniterator.hh: MMeshLeafIntersectionIterator", "dune/mmesh/grid/intersections.hh: integrationOuterNormal, outside, neighbor", "dune/mmesh/misc/partitionhelper.hh: computePartitions"]}
{"id": "C230", "title": "Finite volume sums over interface intersections are conservative", "statement": "When a scheme adds, for all interior interface elements and all their intersections, a flux from the inside to the outside that changes its sign with the direction, the sum over all elements of all processes is the sum of the fluxes at the ends of the interface, also where three or more elements meet at a vertex or edge (each pair of them is met exactly once in each direction). A finite volume step therefore changes the integral of a piecewise constant interface function only by the fluxes at the ends of the interface.", "quantifier": "all interfaces of 2D and 3D grids with any junctions, all distributions over any number of processes, all orders of hash maps and of elements, all fluxes and values", "why_tests_cant": "Which neighbour an intersection shows depends on the iteration order of a hash map and on the elements present on the process; a pair of elements missed or met twice at a junction between processes depends on the distribution.", "anchors": ["dune/mmesh/interface/intersectioniterator.hh: MMeshInterfaceGridLeafIntersectionIterator", "dune/mmesh/interface/intersections.hh: outside, boundary", "dune/mmesh/interface/indexsets.hh: update, indexMap", "dune/mmesh/misc/partitionhelper.hh: computeInterfacePartitions"]}
{"id": "C231", "title": "Same settings of the indicator on all processes", "statement": "If minH() and maxH() of the default indicator are set to the same values and factor() to 1 on all processes, markElements() gives an element the same mark on every process where it is present, and the same as in a serial run, however the grid is distributed. In 2D adapt() then refines every element on its own process as in a serial run, provided no element is to be coarsened.", "quantifier": "all 2D grids, all distributions, all positions of the interface, all permitted edge lengths", "why_tests_cant": "Tests with several processes compare one mesh and one distribution; the distances on the processes differ, and whether this has an effect depends on all settings and elements.", "anchors": ["dune/mmesh/remeshing/ratioindicator.hh: operator(), update", "dune/mmesh/remeshing/distance.hh: update, maximum", "dune/mmesh/grid/mmesh.hh: markElements, adapt"]}
{"id": "C232", "title": "Default indicator on several processes", "statement": "With the settings made when the grid is constructed, markElements() decides about each element on its own process as in a serial run, the marks of ghosts are those of their owners, the result is the same on all processes, and elements further from the interface than distProportion times the largest distance get the edge lengths from factor * minH to factor * maxH.", "quantifier": "all 2D grids and distributions", "why_tests_cant": "The thresholds depend on the shortest and longest edge on each process and on border vertices; in a serial test, or with edges of equal length, nothing is seen.", "anchors": ["dune/mmesh/remeshing/ratioindicator.hh: init, update, operator()", "dune/mmesh/remeshing/distance.hh: update, maximum", "dune/mmesh/grid/mmesh.hh: MMesh, markElements"]}
{"id": "C233", "title": "Old elements and repeated questions for ids", "statement": "An element stored in a component during an adaptation has for ever the id and the corners of the leaf element it was made from, whatever happens to the grid. An element or facet object that was asked for its id gives the same answer ever after, and the question changes neither comparisons nor the geometry.", "quantifier": "all grids, all elements and facets, all states of the grid at the time of the question", "why_tests_cant": "it ranges over all changes of the grid between storing an element and asking it", "anchors": ["dune/mmesh/grid/cachingentity.hh: MMeshCachingEntity", "dune/mmesh/grid/entity.hh: id, geometry"]}
