import Verif.Tri.Basic
import Verif.Util.Iterate

/-!
# Iteration over the interface (model)

An interface segment is represented by the set of its vertex ids (the code uses the sorted list of ids, see
`Verif.Segments`).
-/

namespace Verif.InterfaceIter

open Verif Tri Factory

variable {d : Nat}

/-- grid/mmesh.hh: the triangulation, the insertion numbers of the cells (cgal/defaults.hh:27; set by the factories for
inserted elements only, indeterminate otherwise) and the interface segments. -/
structure Grid (d : Nat) where
  tri : Tri d
  ins : Nat → Nat
  segs : Finset (Finset (Option Nat))

/-- interface/grid.hh:513-517 `isInterface` of a host facet. -/
def isInterface (g : Grid d) (h : Nat) (i : Fin (d + 1)) : Bool := decide (g.tri.facet h i ∈ g.segs)

/-- interface/leafiterator.hh:90-106, 236-252 `proceed` (negated), for one process and all partitions: the facet is an
interface segment and the insertion number of the cell is not larger than that of the neighbour. -/
def keep (g : Grid d) (p : Nat × Fin (d + 1)) : Bool :=
  isInterface g p.1 p.2 &&
  match g.tri.nbr p.1 p.2 with
  | some m => !(decide (g.ins p.1 > g.ins m))
  | none => false

/-- interface/leafiterator.hh:67-75, 213-221: the facets in the order of `increment`: cells in host order, `face_` from
0 to d. -/
def positions (g : Grid d) : List (Nat × Fin (d + 1)) :=
  g.tri.finiteCells.flatMap fun h => (List.finRange (d + 1)).map fun i => (h, i)

/-- The facets visited when iterating over the elements of the interface grid. (Models:
interface/leafiterator.hh:30-110, 176-256.) -/
def interfaceElements (g : Grid d) : List (Nat × Fin (d + 1)) := Iterate.rangeFor (keep g) (positions g)

/-- interface/entity.hh:372-392: the host facet stored in an interface entity made from facet `(h, i)`: the mirror
facet if the insertion number of the cell is larger than that of the neighbour. -/
def canonical (g : Grid d) (h : Nat) (i : Fin (d + 1)) : Nat × Fin (d + 1) :=
  match g.tri.nbr h i with
  | none => (h, i)
  | some m =>
    if g.ins h > g.ins m then
      -- `mirror_edge` / `mirror_facet`: the neighbour and the index of the facet there
      match (List.finRange (d + 1)).find? (fun j => decide (g.tri.facet m j = g.tri.facet h i)) with
      | some j => (m, j)
      | none => (h, i)
    else (h, i)

/-! ### interface iterators of the bulk grid -/

/-- A facet is on the domain boundary if one of the two adjacent cells is infinite. (Models:
grid/interfaceiterator.hh:85-88, 154-157.) -/
def atInfinite (g : Grid d) (p : Nat × Fin (d + 1)) : Bool :=
  let inf := fun h => match g.tri.cells[h]? with
    | some c => !finite c
    | none => false
  inf p.1 || match g.tri.nbr p.1 p.2 with
    | some m => inf m
    | none => false

/-- grid/interfaceiterator.hh:76-89, 146-158 `isInterface_`. -/
def keepBulk (g : Grid d) (includeBoundary : Bool) (p : Nat × Fin (d + 1)) : Bool :=
  if includeBoundary then isInterface g p.1 p.2 else isInterface g p.1 p.2 && !atInfinite g p

/-- grid/mmesh.hh:555-570 and grid/rangegenerators.hh `interfaceElements(gv, includeBoundary)`: `facets` are the finite
facets in host order, each once. `interfaceBegin` passes `false` whatever its argument is (line 559). -/
def bulkInterfaceElements (g : Grid d) (facets : List (Nat × Fin (d + 1))) (includeBoundary : Bool) :
    List (Nat × Fin (d + 1)) :=
  let _ := includeBoundary
  Iterate.rangeFor (keepBulk g false) facets

/-- grid/interfaceiterator.hh:239-243 `dereference`: vertex `(host.second + i_ + 1) % (dim + 1)` of the cell. -/
def facetVertex (g : Grid d) (p : Nat × Fin (d + 1)) (k : Nat) : Option Nat :=
  match g.tri.cells[p.1]? with
  | some c => c ⟨(p.2.val + k + 1) % (d + 1), Nat.mod_lt _ (by omega)⟩
  | none => none

/-- The (segment, i_) positions in the order of `increment` (grid/interfaceiterator.hh:219-225). -/
def vertexPositions (g : Grid d) (segments : List (Nat × Fin (d + 1))) : List (Option Nat) :=
  segments.flatMap fun p => (List.range d).map (facetVertex g p)

/-- grid/interfaceiterator.hh:193-237: the iteration with its set of visited ids: the constructor inserts the first
vertex, `increment` moves on until the id is not in the set. -/
def visitUnseen : List (Option Nat) → List (Option Nat) → List (Option Nat)
  | _, [] => []
  | visited, v :: rest => if v ∈ visited then visitUnseen visited rest else v :: visitUnseen (v :: visited) rest

/-- grid/mmesh.hh:573-588, `interfaceVertices(gv, includeBoundary)`. -/
def interfaceVertices (g : Grid d) (facets : List (Nat × Fin (d + 1))) (includeBoundary : Bool) : List (Option Nat) :=
  visitUnseen [] (vertexPositions g (Iterate.rangeFor (keepBulk g includeBoundary) facets))

end Verif.InterfaceIter
