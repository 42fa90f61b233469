import Verif.Tri.Basic
import Verif.RefElem.Model

/-!
# Iterators over incident entities (grid/incidentiterator.hh, interface/incidentiterator.hh)

All of them have the same shape: the constructor of the begin iterator runs through a circulator (2D) or output list (3D) of CGAL and copies the entities that
pass a test into `elementContainer_`, the constructor of the end iterator runs through it again and counts, `equals` compares the counters, `dereference` reads
the container. A circulator is the list of what it runs through. The two constructors call CGAL separately, so that they may see two different lists.

A vertex is its id, the infinite vertex is `none`; a facet is a pair of a cell and an index, as in CGAL.
-/

namespace Verif.Incident

open Verif Tri Factory RefElem

variable {α : Type}

/-- The body of the loops over the circulator in the begin constructors (e.g. grid/incidentiterator.hh:77-81). -/
def fill (keep : α → Bool) : List α → List α → List α
  | [], container => container
  | a :: rest, container => fill keep rest (if keep a then container ++ [a] else container)

/-- The body of the loops in the end constructors (e.g. grid/incidentiterator.hh:92-95). -/
def countUp (keep : α → Bool) : List α → Nat → Nat
  | [], i => i
  | a :: rest, i => countUp keep rest (if keep a then i + 1 else i)

/-- A range-based `for` from the iterator with counter `i` and this container up to the counter `stop`, at most `fuel`
times; `none` if the end is not reached or the
container is read outside of its bounds. (Models: grid/incidentiterator.hh:85-105, and the same in the other classes.)
-/
def walk (container : List α) (stop : Nat) : Nat → Nat → Option (List α)
  | 0, i => if i = stop then some [] else none
  | fuel + 1, i =>
    if i = stop then some []
    else match container[i]? with
      | none => none
      | some a => (walk container stop fuel (i + 1)).map (a :: ·)

/-- The entities visited by `for (x : incident…(v))`: `circ` and `circ'` are what CGAL gives to the two constructors.
(Models: grid/incidentiterator.hh:66-108, and the same in the other classes.) -/
def visited (keep : α → Bool) (circ circ' : List α) : Option (List α) :=
  walk (fill keep circ []) (countUp keep circ' 0) circ'.length 0

variable {d : Nat}

/-- The mesh as far as the iterators read it: the triangulation, the flag `isInterface` of the vertices (cgal/defaults.hh:45) and the keys of
`interfaceSegments_`. -/
structure Mesh (d : Nat) where
  tri : Tri d
  flag : Nat → Bool
  segs : List (List Nat)

/-- `is_infinite` of a cell (CGAL). (Models: used in grid/incidentiterator.hh:75, 137.) -/
def cellInfinite (m : Mesh d) (h : Nat) : Bool :=
  match m.tri.cells[h]? with
  | some c => !finite c
  | none => false

/-- `is_infinite` of a facet (CGAL). (Models: used in grid/incidentiterator.hh:263, 325.) -/
def facetInfinite (m : Mesh d) (f : Nat × Fin (d + 1)) : Bool := decide (none ∈ m.tri.facet f.1 f.2)

/-- `incidentElements(vertex)`: grid/incidentiterator.hh:74-82 (2D), and of an edge in 3D (198-206). In 3D for a vertex (135-145) CGAL gives the finite cells
only and there is no test; `incidentElements3` below. -/
def incidentElements (m : Mesh d) (circ circ' : List Nat) : Option (List Nat) := visited (fun h => !cellInfinite m h) circ circ'

/-- `incidentElements(vertex)` in 3D (grid/incidentiterator.hh:135-145): no test. -/
def incidentElements3 (circ circ' : List Nat) : Option (List Nat) := visited (fun _ => true) circ circ'

/-- `incidentFacets(vertex)` in 2D (grid/incidentiterator.hh:261-269). -/
def incidentFacets (m : Mesh d) (circ circ' : List (Nat × Fin (d + 1))) : Option (List (Nat × Fin (d + 1))) := visited (fun f => !facetInfinite m f) circ circ'

/-- `incidentFacets(vertex)` in 3D (grid/incidentiterator.hh:322-332): no test. -/
def incidentFacets3 (circ circ' : List (Nat × Fin (d + 1))) : Option (List (Nat × Fin (d + 1))) := visited (fun _ => true) circ circ'

/-- `incidentVertices(vertex, includeInfinite)` (grid/incidentiterator.hh:387-396, 448-460). -/
def incidentVertices (includeInfinite : Bool) (circ circ' : List (Option Nat)) : Option (List (Option Nat)) :=
  visited (fun v => includeInfinite || v.isSome) circ circ'

/-- The flag of a vertex; the infinite vertex is never flagged. (Models: cgal/defaults.hh:45.) -/
def vertexFlag (m : Mesh d) : Option Nat → Bool
  | some v => m.flag v
  | none => false

/-- The vertices of a facet in the order of `subEntity` of an interface segment: the vertices of the cell other than
the one opposite. (Their order does not
matter: the flags are all needed and the ids are sorted.). (Models: interface/entity.hh:170-200.) -/
def facetVertices (m : Mesh d) (f : Nat × Fin (d + 1)) : List (Option Nat) :=
  match m.tri.cells[f.1]? with
  | some c => (((List.finRange (d + 1)).filter fun j => j ≠ f.2).map c)
  | none => []

/-- mmesh.hh:607-622 `isInterface(segment)`: false if a vertex is not flagged; otherwise the sorted ids are looked up. -/
def isInterface (m : Mesh d) (f : Nat × Fin (d + 1)) : Bool :=
  (facetVertices m f).all (vertexFlag m) && m.segs.contains (sortIds ((facetVertices m f).filterMap id))

/-- `incidentInterfaceElements(vertex)` in 2D and 3D, and of an edge in 3D (interface/incidentiterator.hh:184-192, 249-260, 330-338). -/
def incidentInterfaceElements (m : Mesh d) (circ circ' : List (Nat × Fin (d + 1))) : Option (List (Nat × Fin (d + 1))) := visited (isInterface m) circ circ'

/-- `incidentInterfaceVertices(vertex)` (interface/incidentiterator.hh:45-53, 105-115). -/
def incidentInterfaceVertices (m : Mesh d) (circ circ' : List (Option Nat)) : Option (List (Option Nat)) := visited (vertexFlag m) circ circ'

/-- interface/grid.hh:513-517 `isInterface` of a host facet, for a finite facet: the sorted ids are looked up. -/
def isInterfaceHost (m : Mesh d) (f : Nat × Fin (d + 1)) : Bool := m.segs.contains (sortIds ((facetVertices m f).filterMap id))

/-- The loop of `isTip` (interface/entity.hh:174-185). -/
def tipLoop (m : Mesh d) : List (Nat × Fin (d + 1)) → Nat → Bool
  | [], count => decide (count = 1)
  | f :: rest, count => if facetInfinite m f then false else tipLoop m rest (if isInterfaceHost m f then count + 1 else count)

/-- `isTip` of an interface vertex (interface/entity.hh:168-189); `circ` are the incident edges. In 3D the answer is always false. -/
def isTip (m : Mesh d) (circ : List (Nat × Fin (d + 1))) : Bool := if d = 3 then false else tipLoop m circ 0

/-- mmesh.hh:624-646 `isInterface(edge)` in 3D for the edge with the ids `a`, `b`. -/
def isInterfaceEdge (m : Mesh d) (a b : Nat) : Bool :=
  if !(m.flag a) then false
  else if !(m.flag b) then false
  else
    let ids := sortIds [a, b]
    m.segs.any fun seg => (seg[0]? == ids[0]? && seg[1]? == ids[1]?) || (seg[1]? == ids[0]? && seg[2]? == ids[1]?) || (seg[0]? == ids[0]? && seg[2]? == ids[1]?)

/-- mmesh.hh:649-654 `isOnInterface(entity)`. -/
def isOnInterface (m : Mesh d) (h : Nat) : Bool := (List.finRange (d + 1)).any fun i => isInterface m (h, i)

end Verif.Incident
