import Mathlib.Data.Fin.Tuple.Sort
import Mathlib.Data.Finset.Sort
import Mathlib.Data.List.Sort
import Mathlib.Algebra.BigOperators.Fin
import Mathlib.Algebra.Order.BigOperators.Group.Finset

/-!
# Local numberings of sub-entities (model)

A host cell of dimension `d` (CGAL face or cell) stores its vertices in slots `0..d`.  The grid keeps for each
cell the array `cgalIndex`, which sends the number of a corner in the DUNE reference element to the slot of the
vertex.  All conversions between slots and DUNE numbers go through this array.
-/

namespace Verif.RefElem

open Finset

/-- Vertex `k` of facet `f` of the DUNE reference simplex, `ref<dim>().subEntity(f, 1, k, dim)`
(dune-geometry numbering used by common.hh:49-53; modelled by its published table: facet `f` omits corner
`dim - f` and lists the others in ascending order, see the examples below for the tables). -/
def refFacet {d : ℕ} (f : Fin (d + 1)) (k : Fin d) : Fin (d + 1) := (Fin.rev f).succAbove k

example : (List.finRange 3).map (fun f => (List.finRange 2).map (refFacet (d := 2) f))
    = [[0, 1], [0, 2], [1, 2]] := by decide
example : (List.finRange 4).map (fun f => (List.finRange 3).map (refFacet (d := 3) f))
    = [[0, 1, 2], [0, 1, 3], [0, 2, 3], [1, 2, 3]] := by decide

/-- The two vertices of edge `e` of the DUNE reference tetrahedron, `ref<3>().subEntity(e, 2, ·, 3)`
(dune-geometry table). (Models: dune-geometry, not part of /repo.) -/
def refEdge3 : Fin 6 → Fin 4 × Fin 4
  | 0 => (0, 1) | 1 => (0, 2) | 2 => (1, 2) | 3 => (0, 3) | 4 => (1, 3) | 5 => (2, 3)

/-- Vertex `m` of edge `e` of the reference tetrahedron. (Models: dune-geometry, not part of /repo.) -/
def refEdgeVertex (e : Fin 6) (m : Fin 2) : Fin 4 := if m = 0 then (refEdge3 e).1 else (refEdge3 e).2

/-- grid/common.hh:34-65 `sort_indices`, `computeCGALIndices`: the slots sorted by the ids of their vertices.
`std::sort` is modelled by Mathlib's stable sorting permutation; for distinct ids every sorting algorithm gives
the same array (`Props.lean`, `C07_cgalIndex_unique`). -/
def computeCGALIndices {n : ℕ} (ids : Fin n → ℕ) : Equiv.Perm (Fin n) := Tuple.sort ids

/-- grid/common.hh:68-78 `duneFacetToCgalSecond`.  `size_t` subtraction is modelled by truncated subtraction;
`C07_no_wraparound` shows that the subtrahend never exceeds the minuend. -/
def duneFacetToCgalSecond (d : ℕ) (c : Fin (d + 1) → Fin (d + 1)) (f : Fin (d + 1)) : ℕ :=
  (if d = 2 then 3 else 6) - ∑ k : Fin d, (c (refFacet f k)).val

/-- The subtrahend in `duneFacetToCgalSecond` (common.hh:73-75). -/
def duneFacetSum (d : ℕ) (c : Fin (d + 1) → Fin (d + 1)) (f : Fin (d + 1)) : ℕ :=
  ∑ k : Fin d, (c (refFacet f k)).val

/-- grid/common.hh:87-89 and 107-109: `duneIndex = cgalIndex; for k: duneIndex[cgalIndex[k]] = k`. -/
def invertIndex {n : ℕ} (c : Fin n → Fin n) : Fin n → Fin n :=
  (List.finRange n).foldl (fun acc k => Function.update acc (c k) k) c

/-- The sum in `cgalFacetToDuneFacet` (common.hh:91-93); `(i+k+1) % (dim+1)` is addition in `Fin (dim+1)`. -/
def cgalFacetSum (d : ℕ) (c : Fin (d + 1) → Fin (d + 1)) (i : Fin (d + 1)) : ℕ :=
  ∑ k : Fin d, (invertIndex c (i + k.succ)).val

/-- grid/common.hh:81-97 `cgalFacetToDuneFacet`. -/
def cgalFacetToDuneFacet (d : ℕ) (c : Fin (d + 1) → Fin (d + 1)) (i : Fin (d + 1)) : ℕ :=
  cgalFacetSum d c i - (if d = 2 then 1 else 3)

/-- grid/common.hh:99-119 `cgalEdgeToDuneEdge` (3D). -/
def cgalEdgeToDuneEdge (c : Fin 4 → Fin 4) (i j : Fin 4) : ℕ :=
  let i0 := invertIndex c i
  let j0 := invertIndex c j
  let p := if i0 > j0 then (j0, i0) else (i0, j0)
  if p.2 ≠ 3 then p.1.val + p.2.val - 1 else 3 + p.1.val

/-- A host cell as the grid uses it: the ids of the vertices in its slots and the stored `cgalIndex`
(cgal/defaults.hh:26-38 `ElementInfo::cgalIndex`, `VertexInfo::id`). -/
structure Cell (d : ℕ) where
  /-- `vertex(i)->info().id` -/
  ids : Fin (d + 1) → ℕ
  /-- `info().cgalIndex` -/
  c : Fin (d + 1) → Fin (d + 1)

/-- `std::sort` on a list of ids (entity.hh:358, 710). -/
def sortIds (l : List ℕ) : List ℕ := l.insertionSort (· ≤ ·)

/-- grid/entity.hh:703-714 `MMeshEntity<0>::id()`, first call: ids of the slots, sorted.  Caching is modelled
in `MultiId`. -/
def elementId {d : ℕ} (e : Cell d) : List ℕ := sortIds ((List.finRange (d + 1)).map e.ids)

/-- grid/entity.hh:613-623 `subEntity<dim>(i)` of an element (with host): the slot of corner `i`. -/
def elementVertexSlot {d : ℕ} (e : Cell d) (i : Fin (d + 1)) : Fin (d + 1) := e.c i

/-- grid/entity.hh:625-633 `subEntity<1>(i)` of an element: the host facet `(cell, second)`; `none` if the
computed index is not a slot. -/
def elementFacetSlot {d : ℕ} (e : Cell d) (i : Fin (d + 1)) : Option (Fin (d + 1)) :=
  if h : duneFacetToCgalSecond d e.c i < d + 1 then some ⟨_, h⟩ else none

/-- grid/entity.hh:182-196 `subEntity<dim>(i)` of a codim 1 entity given as host facet `(cell, second)`. -/
def facetVertexSlot {d : ℕ} (e : Cell d) (second : Fin (d + 1)) (i : Fin d) : Option (Fin (d + 1)) :=
  if h : cgalFacetToDuneFacet d e.c second < d + 1 then some (e.c (refFacet ⟨_, h⟩ i)) else none

/-- grid/entity.hh:349-362 `MMeshEntity<codim>::id()` of a facet. -/
def facetId {d : ℕ} (e : Cell d) (second : Fin (d + 1)) : Option (List ℕ) :=
  ((List.finRange d).mapM (fun i => (facetVertexSlot e second i).map e.ids)).map sortIds

/-- grid/entity.hh:635-647 `subEntity<2>(i)` of a 3D element: the host edge `(cell, i0, i1)`. -/
def elementEdgeSlots (e : Cell 3) (i : Fin 6) : Fin 4 × Fin 4 :=
  (e.c (refEdgeVertex i 0), e.c (refEdgeVertex i 1))

/-- grid/entity.hh:199-215 `subEntity<3>(m)` of a codim 2 entity in 3D. -/
def edgeVertexSlot (e : Cell 3) (i j : Fin 4) (m : Fin 2) : Option (Fin 4) :=
  if h : cgalEdgeToDuneEdge e.c i j < 6 then some (e.c (refEdgeVertex ⟨_, h⟩ m)) else none

/-- grid/entity.hh:349-362 `id()` of an edge in 3D. -/
def edgeId (e : Cell 3) (i j : Fin 4) : Option (List ℕ) :=
  ((List.finRange 2).mapM (fun m => (edgeVertexSlot e i j m).map e.ids)).map sortIds

/-- The id of the placeholder father used during adaptation (entity.hh:451-456, indexsets.hh:357). -/
def dummyId : List ℕ := [2 ^ 64 - 4, 2 ^ 64 - 3, 2 ^ 64 - 2]

/-- grid/indexsets.hh:350-378 `subId` in 2D, codimension 1, from the id of the element. -/
def subId2Facet (eid : List ℕ) (i : Fin 3) : Option (List ℕ) :=
  if eid ≠ dummyId then do
    let id0 ← eid[if i.val < 2 then 0 else 1]?
    let id1 ← eid[if i.val = 0 then 1 else 2]?
    pure [min id0 id1, max id0 id1]
  else
    pure [if i.val < 2 then 2 ^ 64 - 4 else 2 ^ 64 - 3, if i.val = 0 then 2 ^ 64 - 3 else 2 ^ 64 - 2]

/-- grid/indexsets.hh:350-378 `subId` in 2D, codimension 2. -/
def subId2Vertex (eid : List ℕ) (i : Fin 3) : Option ℕ :=
  if eid ≠ dummyId then eid[i.val]? else some (2 ^ 64 - 4 + i.val)

/-- grid/indexsets.hh:380-397 `subId` in 3D: the id of the sub-entity object. -/
def subId3Facet (e : Cell 3) (i : Fin 4) : Option (List ℕ) := (elementFacetSlot e i).bind (facetId e)

/-- grid/indexsets.hh:380-397 `subId` in 3D, edges. -/
def subId3Edge (e : Cell 3) (i : Fin 6) : Option (List ℕ) :=
  edgeId e (elementEdgeSlots e i).1 (elementEdgeSlots e i).2

/-- grid/indexsets.hh:380-397 `subId` in 3D, vertices. -/
def subId3Vertex (e : Cell 3) (i : Fin 4) : ℕ := e.ids (elementVertexSlot e i)

/-! ### Geometries (grid/geometry.hh) -/

/-- grid/geometry.hh:76-86 and 168-176: corner `k` of an element is the point in slot `cgalIndex[k]`. -/
def elementCorner {d : ℕ} {P : Type*} (e : Cell d) (pt : Fin (d + 1) → P) (k : Fin (d + 1)) : P := pt (e.c k)

/-- grid/geometry.hh:88-104 and 178-194: corner `k` of a facet `(cell, second)`. -/
def facetCorner {d : ℕ} {P : Type*} (e : Cell d) (pt : Fin (d + 1) → P) (second : Fin (d + 1)) (k : Fin d) :
    Option P := (facetVertexSlot e second k).map pt

/-- grid/geometry.hh:196-214: corner `m` of an edge in 3D. -/
def edgeCorner {P : Type*} (e : Cell 3) (pt : Fin 4 → P) (i j : Fin 4) (m : Fin 2) : Option P :=
  (edgeVertexSlot e i j m).map pt

/-- grid/geometry.hh:106-111 `getLocalVertices_` in 2D: the numbers of the reference corners used. -/
def localVertices2 (k : ℕ) : List (Fin 3) := [if k = 2 then 1 else 0, if k = 0 then 1 else 2]

/-- grid/geometry.hh:216-223 `getLocalVertices_` in 3D. -/
def localVertices3 (k : ℕ) : List (Fin 4) :=
  [if k ≤ 2 then 0 else 1, if k ≤ 1 then 1 else 2, if k = 0 then 2 else 3]

/-- interface/common.hh:16-38 `computeCGALIndices` of an interface element given as host facet
`(cell, second)`: the slots `(second+i+1) % (dim+2)` sorted by the ids of their vertices.  Here `d` is the
dimension of the bulk grid (`dim + 1` in the code). -/
def interfaceIndices {d : ℕ} (ids : Fin (d + 1) → ℕ) (second : Fin (d + 1)) : List (Fin (d + 1)) :=
  ((List.finRange d).map (fun i => second + i.succ)).insertionSort (fun a b => ids a ≤ ids b)

/-- interface/geometry.hh:73-83 and 128-143: the corners of an interface element. -/
def interfaceCorners {d : ℕ} {P : Type*} (ids : Fin (d + 1) → ℕ) (pt : Fin (d + 1) → P)
    (second : Fin (d + 1)) : List P := (interfaceIndices ids second).map pt

end Verif.RefElem
