import Mathlib.Analysis.Convex.Combination
import Mathlib.LinearAlgebra.Matrix.Determinant.Basic
import Mathlib.LinearAlgebra.AffineSpace.Independent
import Mathlib.Data.Fin.Tuple.Basic
import Mathlib.Logic.Equiv.Basic

/-!
# Refinement of the mesh (model)

Elements are given by their vertices in the order of the host grid, vertices by names; `pos` gives their positions. Only the finite elements are
represented. The space `V` of positions is any vector space; where volumes occur it is `K^d`. `double` is modelled by an ordered field.

The insertion functions of CGAL (`insert_in_edge`, `insert_in_face`, `insert_in_cell`) are not part of the repository. They are modelled by
their documented effect: every element that contains the edge (or is the face or cell) is replaced by the elements in which one end point (one vertex) is
replaced by the new vertex. CGAL requires that the point lies on the edge or in the face, but does not check it in release builds; the effect on the
elements is the same wherever the point is. The order in which CGAL stores the elements is not modelled.
-/

namespace Verif.Refine

variable {K V : Type*} [Field K] [AddCommGroup V] [Module K V] {d : ℕ}

/-- The finite part of the triangulation: elements and positions of the vertices. (Models: mmesh.hh:1811 `hostgrid_`.)
-/
structure Mesh (V : Type*) (d : ℕ) where
  cells : List (Fin (d + 1) → ℕ)
  pos : ℕ → V

/-- The elements that replace an element `c`, when a vertex `m` is inserted into the edge or element with the vertices
`F`. (Models: CGAL, not part of /repo; called in mmesh.hh:1379-1401.) -/
def splitCell (F : Finset ℕ) (m : ℕ) (c : Fin (d + 1) → ℕ) : List (Fin (d + 1) → ℕ) :=
  if F ⊆ Finset.univ.image c then ((List.finRange (d + 1)).filter fun i => c i ∈ F).map fun i => Function.update c i m else [c]

/-- Insertion of the vertex `m` with position `x`: `insertInEdge_` (mmesh.hh:1373-1384) for an edge `F`, `insert_in_face` and `insert_in_cell` in
`insertInCell_` (mmesh.hh:1386-1396) if `F` is an element. -/
def insertAt (M : Mesh V d) (F : Finset ℕ) (m : ℕ) (x : V) : Mesh V d :=
  { cells := M.cells.flatMap (splitCell F m), pos := Function.update M.pos m x }

/-- An entry of the queue `insert_` (`RefinementInsertionPoint`, mmesh.hh:128-143): the end points of the edge if the request is made for an edge, and the
position of the new vertex. -/
structure Req (V : Type*) where
  edge : Option (ℕ × ℕ)
  point : V

/-- mmesh.hh:766-793 `refineEdge` for the edge with the end points `a` (corner 0) and `b`; `t` is the argument `where`. -/
def refineEdge (M : Mesh V d) (a b : ℕ) (t : K) : Req V := ⟨some (a, b), t • M.pos a + (1 - t) • M.pos b⟩

/-- mmesh.hh:833-852, 876-893 and remeshing/longestedgerefinement.hh:42-56: the request made for a marked element whose longest edge has the end points
`a` and `b`; the point is the center of the edge. -/
def refineMarked (K : Type*) [Field K] [Module K V] (M : Mesh V d) (a b : ℕ) : Req V := ⟨some (a, b), (1 / 2 : K) • (M.pos a + M.pos b)⟩

/-- mmesh.hh:796-803 `insertVertexInCell`. -/
def insertVertexInCell (x : V) : Req V := ⟨none, x⟩

/-- Closed element: the points between its vertices. (Models: no code of its own.) -/
def hull (K : Type*) [Field K] [LinearOrder K] [Module K V] (M : Mesh V d) (c : Fin (d + 1) → ℕ) : Set V :=
  convexHull K (Set.range fun i => M.pos (c i))

/-- The vertex does not occur in the mesh. (Models: no code of its own.) -/
def Fresh (M : Mesh V d) (m : ℕ) : Prop := ∀ c ∈ M.cells, ∀ i, c i ≠ m

/-- One turn of the insertion loop (mmesh.hh:1227-1319) on the triangulation. A request for an edge is carried out if the stored handle designates the edge,
and dropped otherwise (1234-1243); here it can be dropped at any time. That the handle is not mistaken for another edge is C59 (not true of all requests,
C183). A request without edge is carried out in the face found by `locate` (1386-1396): an element that contains the point, or, if the point is in
no element, an infinite face at a facet of the boundary that is visible from the point (documented by CGAL); inserting a vertex there makes the facet and the
new vertex a new element. Requests made by `addToInterface`, which are tried again with another point (1257-1287), are not modelled here. -/
inductive Step [LinearOrder K] (M : Mesh V d) : Req V → Mesh V d → Prop
  | dropped {e x} : Step M ⟨some e, x⟩ M
  | edge {a b x m c} : c ∈ M.cells → a ≠ b → (∃ i, c i = a) → (∃ i, c i = b) → Fresh M m → Step M ⟨some (a, b), x⟩ (insertAt M {a, b} m x)
  | cell {x m c} : c ∈ M.cells → x ∈ hull K M c → Fresh M m → Step M ⟨none, x⟩ (insertAt M (Finset.univ.image c) m x)
  | outside {x m c i} : c ∈ M.cells → (∀ c' ∈ M.cells, x ∉ hull K M c') → (∀ c' ∈ M.cells, Finset.univ.image c \ {c i} ⊆ Finset.univ.image c' → c' = c) →
      Fresh M m → Step M ⟨none, x⟩ ⟨(Function.update c i m ∘ Equiv.swap 0 (Fin.last d)) :: M.cells, Function.update M.pos m x⟩

/-- The insertion loop of `adapt()` over all requests (mmesh.hh:1226-1319). -/
inductive Run (K : Type*) [Field K] [LinearOrder K] [Module K V] : Mesh V d → List (Req V) → Mesh V d → Prop
  | nil {M} : Run K M [] M
  | cons {M M' M'' r rs} : Step (K := K) M r M' → Run K M' rs M'' → Run K M (r :: rs) M''

/-- The elements around the vertex `v`: the hole made by `make_hole` (cgal/triangulationwrapper.hh:55-57) or in `removeFromInterface_`
(mmesh.hh:1399-1451). -/
def star (M : Mesh V d) (v : ℕ) : Mesh V d := { M with cells := M.cells.filter fun c => v ∈ Finset.univ.image c }

/-- cgal/triangulationwrapper.hh:52-61 `removeAndGiveNewElements` and 63-125 `remeshHoleConstrained`: the elements around `v` are replaced by the elements `N`
that fill the hole. -/
def removeAt (M : Mesh V d) (v : ℕ) (N : List (Fin (d + 1) → ℕ)) : Mesh V d :=
  { M with cells := (M.cells.filter fun c => v ∉ Finset.univ.image c) ++ N }

/-- The neighbours of `v`: the corners of the hole. (Models: cgal/triangulationwrapper.hh:55-62.) -/
def Link (M : Mesh V d) (v u : ℕ) : Prop := u ≠ v ∧ ∃ c ∈ M.cells, (∃ i, c i = v) ∧ ∃ i, c i = u

/-- `v` is not on the boundary: every facet that contains `v` has an element on the other side. (Models: no code of
its own.) -/
def Inner (M : Mesh V d) (v : ℕ) : Prop :=
  ∀ c ∈ M.cells, (∃ i, c i = v) → ∀ i, c i ≠ v → ∃ c' ∈ M.cells, Finset.univ.image c \ {c i} ⊆ Finset.univ.image c' ∧ ∀ j, c' j ≠ c i

/-- What CGAL's `fill_hole_delaunay` and `fill_hole` do, an assumption: the new elements have their vertices on the
boundary of the hole and are not degenerate; if
the hole is closed (`v` is not on the boundary), they form a triangulation of the hole, and the facets that bound the
hole are facets of it. Whether CGAL's functions
succeed for a particular hole is not modelled. (Models: called in cgal/triangulationwrapper.hh:61, 107, 111.) -/
structure Fills (K : Type*) [Field K] [LinearOrder K] [Module K V] (M : Mesh V d) (v : ℕ) (N : List (Fin (d + 1) → ℕ)) : Prop where
  link : ∀ n ∈ N, ∀ i, Link M v (n i)
  nondegenerate : ∀ n ∈ N, AffineIndependent K fun i => M.pos (n i)
  meet : Inner M v → ∀ n ∈ N, ∀ n' ∈ N, hull K M n ∩ hull K M n' ⊆ convexHull K (M.pos '' (Set.range n ∩ Set.range n'))
  covers : Inner M v → ∀ x, (∃ n ∈ N, x ∈ hull K M n) ↔ ∃ c ∈ M.cells, (∃ i, c i = v) ∧ x ∈ hull K M c
  facets : Inner M v → ∀ c ∈ M.cells, (∃ i, c i = v) → ∃ n ∈ N, Finset.univ.image c \ {v} ⊆ Finset.univ.image n

/-- The removal loop of `adapt()` (mmesh.hh:1321-1337) on the triangulation. In 3D the code throws (`removeAndGiveNewElements` of
`TriangulationWrapper<3>`). -/
inductive Removals (K : Type*) [Field K] [LinearOrder K] [Module K V] : Mesh V d → List ℕ → Mesh V d → Prop
  | nil {M} : Removals K M [] M
  | cons {M M' v vs N} : Fills K M v N → Removals K (removeAt M v N) vs M' → Removals K M (v :: vs) M'

/-- mmesh.hh:829-1371 `adapt()` on the triangulation: first all insertions, then all removals. -/
def Adapt (K : Type*) [Field K] [LinearOrder K] [Module K V] (M : Mesh V d) (rs : List (Req V)) (vs : List ℕ) (M' : Mesh V d) : Prop :=
  ∃ M1, Run K M rs M1 ∧ Removals K M1 vs M'

end Verif.Refine
