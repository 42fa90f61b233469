import Verif.Ranks.Model
import Verif.Parallel.Model
import Verif.InterfaceIter.Model
import Verif.Util.Iterate

/-!
# Iteration over partitions (grid/leafiterator.hh, interface/leafiterator.hh, misc/partitionhelper.hh)

Elements of the mesh are named by their position in CGAL's iteration over finite cells, `0` to `n - 1`, iterators by the position they point to. A range-based
`for` over a filtering iterator is `Iterate.rangeFor`.
-/

namespace Verif.PartIter

open Verif Tri Factory

/-- `PartitionIteratorType` of dune-grid. (Models: dune-grid; partitionhelper.hh:47-61.) -/
inductive PIType
  | interior | interiorBorder | overlap | overlapFront | all | ghost
  deriving DecidableEq

/-- `PartitionType` of dune-grid. (Models: dune-grid; partitionhelper.hh:70-78.) -/
inductive PType
  | interior | border | overlap | front | ghost
  deriving DecidableEq

/-- partitionhelper.hh:45-66 `contains`. -/
def contains (pi : PIType) (p : Int) : Bool :=
  if p = -1 then false
  else match pi with
    | .all => true
    | .interior => p = 0
    | .interiorBorder => p ≠ 2
    | .overlap => p ≠ 2
    | .overlapFront => p ≠ 2
    | .ghost => p = 2

/-- partitionhelper.hh:73-81 `partitionType`. -/
def partitionType (p : Int) : PType := if p = 0 then .interior else if p = 1 then .border else .ghost

/-- leafiterator.hh:41-61 and 231-251 (3D): the range of an iterator over elements: `leafInteriorBegin()`, `leafInteriorEnd()` for
`Interior_Partition`, else all finite cells. -/
def range (size N n me : Nat) (pi : PIType) : Nat × Nat :=
  if pi = .interior then ((Ranks.distribute size N n me).beginIt, (Ranks.distribute size N n me).endIt) else (0, n)

/-- leafiterator.hh:31-89, 206-260: the elements visited by `for (e : elements(gridView, pi))`; `part` is `info().partition` of the elements.
`none`: the begin is behind the end, the iterator runs out of the container. -/
def elements (size N n me : Nat) (part : Nat → Int) (pi : PIType) : Option (List Nat) :=
  let r := range size N n me pi
  if r.1 ≤ r.2 then some (Iterate.rangeFor (fun c => contains pi (part c)) (List.range' r.1 (r.2 - r.1))) else none

/-- leafiterator.hh:91-196, 262-431: the facets, edges or vertices visited: `items` is CGAL's iteration over all finite ones, `part` their partition
(partitionhelper.hh:115-137). -/
def items {α : Type} (part : α → Int) (pi : PIType) (items : List α) : List α := Iterate.rangeFor (fun a => contains pi (part a)) items

/-- interface/leafiterator.hh:27-112, 174-259: the elements of the interface grid visited, as pairs of a cell (its position) and an index of a facet; `cells` are the handles of
the finite cells in CGAL's order, `part` is `interfacePartition_[0]`, by the vertices of the facet. -/
def interfaceElements {d : Nat} (g : InterfaceIter.Grid d) (size N me : Nat) (part : Finset (Option Nat) → Int) (pi : PIType) :
    Option (List (Nat × Fin (d + 1))) :=
  let cells := g.tri.finiteCells
  let r := range size N cells.length me pi
  if r.1 ≤ r.2 then
    some (Iterate.rangeFor (fun p => InterfaceIter.keep g p && contains pi (part (g.tri.facet p.1 p.2)))
      (((cells.drop r.1).take (r.2 - r.1)).flatMap fun h => (List.finRange (d + 1)).map fun i => (h, i)))
  else none

/-- partitionhelper.hh:445-467: partition of an interface vertex in 3D, from the interface elements at the vertex. -/
def interfaceVertexPart (s : Parallel.Part) (star : List Nat) : Int :=
  Parallel.classify star.length (star.countP fun e => s.ipart e = 0) (star.countP fun e => s.ipart e = 2)

/-- grid/mmesh.hh:1652-1668 `ghostSize`: `es`, `fs`, `vs` are the partitions of the finite elements, facets and vertices. The facets and vertices are those of an iteration over all
partitions. -/
def ghostSize (dim : Nat) (es fs vs : List Int) (codim : Nat) : Nat :=
  (if codim = 0 then (items id .ghost es).length else 0) +
  (if codim = 1 then ((items id .all fs).filter fun p => partitionType p = .ghost).length else 0) +
  (if codim = dim then ((items id .all vs).filter fun p => partitionType p = .ghost).length else 0)

end Verif.PartIter
