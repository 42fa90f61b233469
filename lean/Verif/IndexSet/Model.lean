import Verif.RefElem.Props
import Mathlib.Data.List.Nodup

/-!
# The leaf index set of the bulk grid (model)

A mesh is a list of elements, each with a handle and its cell data (vertex ids in slots, `cgalIndex`).
What the grid iterates over (leafiterator.hh, on top of CGAL's iterators) is part of the mesh: a list of
elements, a list of vertices, a list of facets `(element, slot)` and in 3D a list of edges `(element, i, j)`.
The assumption on these iterations ("every facet exactly once, through one of its representations") is a
hypothesis of the theorems.
-/

namespace Verif.IndexSet

open Verif.RefElem

/-- The leaf grid view of one process as the index set sees it. (Models: grid/indexsets.hh:229-300.) -/
structure Mesh (d : ℕ) where
  /-- elements in iteration order (`elements(leafGridView(), Partitions::all)`) -/
  cells : List (Cell d)
  /-- ids of the vertices in iteration order (`vertices(...)`); a vertex is identified with its id (C03) -/
  verts : List ℕ
  /-- facets in iteration order (`edges(...)` in 2D, `facets(...)` in 3D): element and slot -/
  facets : List (Cell d × Fin (d + 1))

/-- `index[key] = count++` over a list of keys, starting from old contents `old` (indexsets.hh:238-251,
266-285; for elements and vertices the table is the `index` field of the infos). -/
def number {K : Type} [DecidableEq K] (old : K → Option ℕ) (keys : List K) : (K → Option ℕ) × ℕ :=
  keys.foldl (fun st k => (Function.update st.1 k (some st.2), st.2 + 1)) (old, 0)

/-- The data of the index set: `info().index` of elements (by element id) and vertices (by vertex id), the map
`codimIndexMap_[0]`, and the cached sizes (indexsets.hh:294-297). -/
structure Indices where
  elem : List ℕ → Option ℕ
  vert : ℕ → Option ℕ
  facet : List ℕ → Option ℕ
  sizeElem : ℕ
  sizeVert : ℕ
  sizeFacet : ℕ

/-- indexsets.hh:231-257 (2D) and 259-292 (3D) `update`, without the edges of 3D (see `updateEdges`).
The maps are cleared, the infos keep stale values for entities that are not visited. -/
def update {d : ℕ} (old : Indices) (m : Mesh d) : Option Indices := do
  let fids ← m.facets.mapM (fun f => facetId f.1 f.2)
  let e := number old.elem (m.cells.map elementId)
  let v := number old.vert m.verts
  let f := number (fun _ => none) fids
  pure ⟨e.1, v.1, f.1, e.2, v.2, f.2⟩

/-- indexsets.hh:41-49 `index` of an element. -/
def indexElem {d : ℕ} (s : Indices) (e : Cell d) : Option ℕ := s.elem (elementId e)

/-- indexsets.hh:41-49 `index` of a vertex. -/
def indexVert (s : Indices) (v : ℕ) : Option ℕ := s.vert v

/-- indexsets.hh:51-60 `index` of a facet object; `none` is the exception "Id of codim 1 entity not found". -/
def indexFacet {d : ℕ} (s : Indices) (e : Cell d) (slot : Fin (d + 1)) : Option ℕ :=
  (facetId e slot).bind s.facet

/-- indexsets.hh:89-116 `subIndex(e, i, 1)`; `none` is the exception of `at`. -/
def subIndexFacet {d : ℕ} (s : Indices) (e : Cell d) (i : Fin (d + 1)) : Option ℕ :=
  (elementFacetSlot e i).bind fun slot => (facetId e slot).bind s.facet

/-- indexsets.hh:98-104 `subIndex(e, i, dim)`. -/
def subIndexVert {d : ℕ} (s : Indices) (e : Cell d) (i : Fin (d + 1)) : Option ℕ :=
  s.vert (e.ids (elementVertexSlot e i))

/-- indexsets.hh:281-285: the edge loop of the 3D update over edges `(element, i, j)`. -/
def updateEdges (edges : List (Cell 3 × Fin 4 × Fin 4)) : Option ((List ℕ → Option ℕ) × ℕ) := do
  let ids ← edges.mapM (fun f => edgeId f.1 f.2.1 f.2.2)
  pure (number (fun _ => none) ids)

/-- indexsets.hh:62-71 `index` of an edge object in 3D. -/
def indexEdge (m : List ℕ → Option ℕ) (e : Cell 3) (i j : Fin 4) : Option ℕ := (edgeId e i j).bind m

/-- indexsets.hh:108-110 `subIndex(e, i, 2)` in 3D. -/
def subIndexEdge (m : List ℕ → Option ℕ) (e : Cell 3) (i : Fin 6) : Option ℕ :=
  (edgeId e (elementEdgeSlots e i).1 (elementEdgeSlots e i).2).bind m

end Verif.IndexSet
