import Mathlib.Data.List.Basic
import Mathlib.Data.List.Nodup
import Mathlib.Algebra.Order.Ring.Nat

/-!
# Vertex ids over the life of a grid (model)

Vertices are named by handles (natural numbers, never reused in the model: a handle stands for one vertex
object from its creation to its removal).  The position in the list is the order in which the triangulation
iterates over its finite vertices; creation may put a vertex anywhere.
Simplification: ids are unbounded natural numbers (the wrap-around of `size_t` after 2^64 ids is not modelled).
-/

namespace Verif.IdSet

/-- cgal/defaults.hh:40-48 `VertexInfo`, the fields `id` and `idWasSet`.  `id` has no initialiser in the code,
so an unset vertex carries an arbitrary number. -/
structure Vtx where
  handle : ℕ
  id : ℕ
  idWasSet : Bool

/-- The host grid's finite vertices, the id set's counter `nextVertexId_` (indexsets.hh:448) and the next
unused handle. -/
structure State where
  verts : List Vtx
  next : ℕ
  fresh : ℕ

/-- What a user of a factory does about vertices.
`new`: the triangulation creates a new vertex, `again h`: the inserted point coincides with the existing vertex
`h` (implicit factory only: `tr_.insert` returns the existing handle). (Models: grid/explicitgridfactory.hh:341-352,
grid/implicitgridfactory.hh:183-196.) -/
inductive FactoryOp where
  | new (pos : ℕ)
  | again (h : ℕ)

/-- explicitgridfactory.hh:312-326 and implicitgridfactory.hh:183-196 `insertVertex`: the vertex gets the number
`countVertices`; the second component is `countVertices`. -/
def factoryStep (s : List Vtx × ℕ × ℕ) : FactoryOp → List Vtx × ℕ × ℕ
  | .new pos => (s.1.insertIdx (min pos s.1.length) ⟨s.2.2, s.2.1, true⟩, s.2.1 + 1, s.2.2 + 1)
  | .again h => (s.1.map (fun v => if v.handle = h then { v with id := s.2.1, idWasSet := true } else v),
      s.2.1 + 1, s.2.2)

/-- A whole run of a factory. (Models: no code of its own: a history.) -/
def factoryRun (ops : List FactoryOp) : List Vtx × ℕ × ℕ := ops.foldl factoryStep ([], 0, 0)

/-- indexsets.hh:321-329 `init`: the next id is one more than the largest id set so far. -/
def initNext (l : List Vtx) : ℕ :=
  l.foldl (fun nxt v => if v.idWasSet && decide (v.id ≥ nxt) then v.id + 1 else nxt) 0

/-- indexsets.hh:400-411 and 420-431, the vertex loop of `update`. -/
def updateLoop : List Vtx → ℕ → List Vtx × ℕ
  | [], n => ([], n)
  | v :: t, n =>
    if !v.idWasSet then
      let r := updateLoop t (n + 1)
      ({ v with id := n, idWasSet := true } :: r.1, r.2)
    else
      let r := updateLoop t n
      (v :: r.1, r.2)

/-- mmesh.hh:294-295: construction of the grid from a factory: id set constructor (`init`), then `update`. -/
def construct (ops : List FactoryOp) : State :=
  let f := factoryRun ops
  let r := updateLoop f.1 (initNext f.1)
  ⟨r.1, r.2, f.2.2⟩

/-- What happens to vertices during the life of the grid.
* `insertUnset`: `insertInEdge_` or a failed `insertInCell_` (mmesh.hh:1379-1401): a new vertex without id;
  `junk` is the uninitialised memory of its `id`
* `insertSet`: insertion followed by `setNextId` (mmesh.hh:1285, 1556-1561)
* `remove`: the triangulation removes a vertex (mmesh.hh:1257, 1330 and 1615-1620)
* `update`: `setIds()` (mmesh.hh:318, 1338) -/
inductive Op where
  | insertUnset (pos : ℕ) (junk : ℕ)
  | insertSet (pos : ℕ) (junk : ℕ)
  | remove (h : ℕ)
  | update

/-- One step; indexsets.hh:439-445 `setNextId` is inlined in `insertSet`. -/
def step (s : State) : Op → State
  | .insertUnset pos junk =>
    ⟨s.verts.insertIdx (min pos s.verts.length) ⟨s.fresh, junk, false⟩, s.next, s.fresh + 1⟩
  | .insertSet pos _ =>
    ⟨s.verts.insertIdx (min pos s.verts.length) ⟨s.fresh, s.next, true⟩, s.next + 1, s.fresh + 1⟩
  | .remove h => ⟨s.verts.filter (fun v => v.handle ≠ h), s.next, s.fresh⟩
  | .update =>
    let r := updateLoop s.verts s.next
    ⟨r.1, r.2, s.fresh⟩

/-- A history of the grid after construction. (Models: no code of its own: a history.) -/
def run (s : State) (ops : List Op) : State := ops.foldl step s

end Verif.IdSet
