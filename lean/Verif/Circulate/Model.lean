import Verif.Incident.Props

/-!
# Circulators on the grid of the explicit factory in 2D (model)

The explicit factory sets the pointers of CGAL's triangulation data structure by hand: the vertices and neighbours of the faces (modelled in `Factory`) and the
pointer of every vertex to one of its faces (here). CGAL's circulators and its function `is_face` follow these pointers. They are code of CGAL 5
(`Triangulation_ds_circulators_2.h`, `Triangulation_data_structure_2.h`), modelled here as far as the factory and the incident iterators use them.
-/

namespace Verif.Circulate

open Verif Tri Factory

/-- explicitgridfactory.hh:158-160: `v0->set_face(face); v1->set_face(face); v2->set_face(face)`. -/
def setFaces (vf : Nat → Option Nat) (h : Nat) (v : Fin 3 → Nat) : Nat → Option Nat :=
  fun u => if u = v 2 then some h else if u = v 1 then some h else if u = v 0 then some h else vf u

/-- explicitgridfactory.hh:405-406: the pointers of the vertices after the elements `E` were created, the first of which has the handle `h`.
`createInfiniteCells` sets the pointer of the infinite vertex only (477). -/
def setAllFaces (vf : Nat → Option Nat) (h : Nat) : List (Fin 3 → Nat) → Nat → Option Nat
  | [] => vf
  | v :: E => setAllFaces (setFaces vf h v) (h + 1) E

/-- The pointers `face()` of the vertices of the created grid. (Models: explicitgridfactory.hh:158-160.) -/
def vertexFace (E : List (Fin 3 → Nat)) : Nat → Option Nat := setAllFaces (fun _ => none) 0 E

/-- CGAL `Face::index(v)`. (Models: CGAL, not part of /repo; used by grid/explicitgridfactory.hh:569-573 and
grid/incidentiterator.hh:58-114, 244-301, 372-429.) -/
def index (c : Fin 3 → Option Nat) (v : Option Nat) : Option (Fin 3) :=
  if c 0 = v then some 0 else if c 1 = v then some 1 else if c 2 = v then some 2 else none

/-- One step around the vertex `v` from face `h`: to the neighbour opposite to the vertex `dir` places after `v`.
CGAL's circulators take `neighbor(ccw(index(v)))`,
`dir = 1`; the loop in `is_edge` takes `neighbor(cw(index(v)))`, `dir = 2`. (Models: CGAL, not part of /repo; used by
grid/explicitgridfactory.hh:569-573 and grid/incidentiterator.hh:58-114, 244-301, 372-429.) -/
def turn (T : Tri 2) (dir : Fin 3) (v : Option Nat) (h : Nat) : Option Nat :=
  match T.cells[h]? with
  | none => none
  | some c =>
    match index c v with
    | none => none
    | some i => T.nbr h (i + dir)

/-- `do { …; ++circulator; } while (circulator != start)` with at most `fuel` steps: the faces visited. (Models:
grid/incidentiterator.hh:73-80, 261-269, 387-396.) -/
def circulate (T : Tri 2) (dir : Fin 3) (v : Option Nat) (start : Nat) : Nat → Nat → Option (List Nat)
  | 0, _ => none
  | fuel + 1, h =>
    match turn T dir v h with
    | none => none
    | some h' => if h' = start then some [h] else (circulate T dir v start fuel h').map (h :: ·)

/-- The faces visited by the circulator around `v` from the face `start`. There are not more steps than faces unless
the loop does not end. (Models: grid/incidentiterator.hh:73-80.) -/
def around (T : Tri 2) (dir : Fin 3) (v : Option Nat) (start : Nat) : Option (List Nat) := circulate T dir v start T.cells.length start

/-- `incident_faces(v)`, a circulator from `v->face()`. (Models: CGAL, not part of /repo; used by
grid/explicitgridfactory.hh:569-573 and grid/incidentiterator.hh:58-114, 244-301, 372-429.) -/
def incidentFaces (T : Tri 2) (E : List (Fin 3 → Nat)) (v : Nat) : Option (List Nat) :=
  match vertexFace E v with
  | none => none
  | some start => around T 1 (some v) start

/-- The vertex of face `h` that is `k` places after `v`. (Models: CGAL, not part of /repo; used by
grid/explicitgridfactory.hh:569-573 and grid/incidentiterator.hh:58-114, 244-301, 372-429.) -/
def after (T : Tri 2) (v : Option Nat) (k : Fin 3) (h : Nat) : Option Nat :=
  match T.cells[h]? with
  | none => none
  | some c => match index c v with
    | none => none
    | some i => c (i + k)

/-- CGAL's edge circulator: the same steps, the edge of the face `h` is the one opposite to the vertex after `v`.
(Models: CGAL, not part of /repo; used by grid/explicitgridfactory.hh:569-573 and grid/incidentiterator.hh:58-114,
244-301, 372-429.) -/
def edgeOf (T : Tri 2) (v : Option Nat) (h : Nat) : Nat × Fin 3 :=
  match T.cells[h]? with
  | none => (h, 0)
  | some c => match index c v with
    | none => (h, 0)
    | some i => (h, i + 1)

/-- `incident_edges(v)`. (Models: CGAL, not part of /repo; used by grid/explicitgridfactory.hh:569-573 and
grid/incidentiterator.hh:58-114, 244-301, 372-429.) -/
def incidentEdges (T : Tri 2) (E : List (Fin 3 → Nat)) (v : Nat) : Option (List (Nat × Fin 3)) :=
  (incidentFaces T E v).map fun l => l.map (edgeOf T (some v))

/-- `incident_vertices(v)`: the vertex after `v` in each face. (Models: CGAL, not part of /repo; used by
grid/explicitgridfactory.hh:569-573 and grid/incidentiterator.hh:58-114, 244-301, 372-429.) -/
def incidentVertices (T : Tri 2) (E : List (Fin 3 → Nat)) (v : Nat) : Option (List (Option Nat)) :=
  (incidentFaces T E v).map fun l => l.map (after T (some v) 1)

/-- CGAL `is_edge(a, b, face, i)`: the first face around `a` (clockwise) in which `b` is the vertex before `a`.
(Models: CGAL, not part of /repo; used by grid/explicitgridfactory.hh:569-573 and grid/incidentiterator.hh:58-114,
244-301, 372-429.) -/
def isEdge (T : Tri 2) (E : List (Fin 3 → Nat)) (a b : Nat) : Option (Option Nat) :=
  match vertexFace E a with
  | none => some none
  | some start => (around T 2 (some a) start).map fun l => l.find? fun h => after T (some a) 2 h == some b

/-- `h->vertex(3 - h->index(a) - h->index(b))`. (Models: CGAL, not part of /repo; used by
grid/explicitgridfactory.hh:569-573 and grid/incidentiterator.hh:58-114, 244-301, 372-429.) -/
def third (T : Tri 2) (a b : Option Nat) (h : Nat) : Option Nat :=
  match T.cells[h]? with
  | none => none
  | some c => match index c a, index c b with
    | some i, some j => c (-(i + j))
    | _, _ => none

/-- CGAL `is_face(a, b, c)`: the third vertex of that face, or of its neighbour at the edge, is `c`. (Models: CGAL,
not part of /repo; used by grid/explicitgridfactory.hh:569-573 and grid/incidentiterator.hh:58-114, 244-301, 372-429.)
-/
def isFace (T : Tri 2) (E : List (Fin 3 → Nat)) (a b c : Nat) : Option Bool :=
  match isEdge T E a b with
  | none => none
  | some none => some false
  | some (some h) =>
    if after T (some a) 1 h = some c then some true
    else
      match turn T 1 (some a) h with
      | none => none
      | some h' => some (decide (third T (some a) (some b) h' = some c))

/-- The outcome of `createGrid`. (Models: explicitgridfactory.hh:389-431.) -/
inductive Created where
  | grid (T : Tri 2)
  | throws
  | undefined

/-- explicitgridfactory.hh:565-570 `checkOccurenceOfAllElements`: `none` if a circulator does not come back. The elements are those of the calls of
`insertElement`, in their order and with their vertices in the order given (105-117). -/
def checkAll (T : Tri 2) (E : List (Fin 3 → Nat)) : List (Fin 3 → Nat) → Option Bool
  | [] => some true
  | v :: L =>
    match isFace T E (v 0) (v 1) (v 2) with
    | none => none
    | some false => some false
    | some true => checkAll T E L

/-- explicitgridfactory.hh:389-431 `createGrid` (2D), the triangulation: `L` are the inserted elements, `E` the same after sorting by the centers and after the swap
in `createElement`, `order` the entries of `neighborMap` in the order of the map. The parts on segments are in `Segments`. -/
def createGrid (L E : List (Fin 3 → Nat)) (order : List (Finset Nat × Slot 2)) : Created :=
  let T := ofTds (buildTds scheme2 E order)
  match checkAll T E L with
  | none => .undefined
  | some false => .throws
  | some true => .grid T

end Verif.Circulate
