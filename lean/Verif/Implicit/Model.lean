import Verif.Util.Map
import Verif.RefElem.Lemmas
import Mathlib.Data.List.Basic
import Mathlib.Algebra.Order.Ring.Nat

/-!
# Implicit grid factory (grid/implicitgridfactory.hh)

The triangulation is a list of vertices; a handle is a position in that list. CGAL's `insert` returns the vertex at the given point if there is one and
creates a vertex otherwise (documentation of CGAL); which triangles it creates is not modelled.
-/

namespace Verif.Implicit

open Verif RefElem

variable {P : Type} [DecidableEq P]

/-- The point and the info of a vertex (cgal/defaults.hh:38-49): `id` and the flag `isInterface`. -/
structure Vtx (P : Type) where
  point : P
  id : Nat
  isInterface : Bool

/-- The members of the factory (grid/implicitgridfactory.hh:281-289). -/
structure State (P : Type) where
  verts : List (Vtx P) := []
  vhs : List Nat := []
  countVertices : Nat := 0
  boundarySegments : List (List Nat × Nat) := []
  countBoundarySegments : Nat := 0
  interfaceSegments : List (List Nat × Nat) := []

/-- Calls of a user. (Models: grid/implicitgridfactory.hh:100-212.) -/
inductive Call (P : Type) where
  | insertVertex (pos : P)
  | insertBoundarySegment (vertices : List Nat)
  | insertInterface (vertices : List Nat) (marker : Nat)

/-- `tr_.insert(makePoint(pos))`: the handle of the vertex at `pos` and the vertices afterwards. The `id` of a new
vertex is overwritten at once. (Models: grid/implicitgridfactory.hh:185.) -/
def trInsert (verts : List (Vtx P)) (pos : P) : Nat × List (Vtx P) :=
  match verts.findIdx? (fun v => v.point = pos) with
  | some h => (h, verts)
  | none => (verts.length, verts ++ [⟨pos, 0, false⟩])

/-- `insertVertex` (grid/implicitgridfactory.hh:183-196). -/
def insertVertex (s : State P) (pos : P) : State P :=
  let r := trInsert s.verts pos
  { s with
    verts := r.2.modify r.1 fun v => { v with id := s.countVertices }
    countVertices := s.countVertices + 1
    vhs := s.vhs ++ [r.1] }

/-- The ids of the vertices `vhs_[v]` (grid/implicitgridfactory.hh:141-144, 205-208), unsorted; `none` if an index is out of range. -/
def idsOf (s : State P) (vertices : List Nat) : Option (List Nat) :=
  vertices.mapM fun v => (s.vhs[v]?).bind fun h => (s.verts[h]?).map (·.id)

/-- What a call does. (Models: grid/implicitgridfactory.hh:100-212.) -/
inductive Outcome (P : Type) where
  | ok (s : State P)
  | throws (s : State P)
  | undefined

/-- One call: `insertVertex`, `insertBoundarySegment` (grid/implicitgridfactory.hh:138-151), `insertInterface` (grid/implicitgridfactory.hh:203-212). -/
def step (s : State P) : Call P → Outcome P
  | .insertVertex pos => .ok (insertVertex s pos)
  | .insertBoundarySegment vs =>
    match idsOf s vs with
    | none => .undefined
    | some ids =>
      match Map.find s.boundarySegments (sortIds ids) with
      | some _ => .throws s
      | none => .ok { s with
          boundarySegments := Map.insert s.boundarySegments (sortIds ids) s.countBoundarySegments
          countBoundarySegments := s.countBoundarySegments + 1 }
  | .insertInterface vs m =>
    match idsOf s vs with
    | none => .undefined
    | some ids => .ok { s with interfaceSegments := Map.insert s.interfaceSegments (sortIds ids) m }

/-- The state after a call; the caller may catch the exception. (Models: no code of its own.) -/
def Outcome.state : Outcome P → Option (State P)
  | .ok s => some s
  | .throws s => some s
  | .undefined => none

/-- A history of calls. (Models: no code of its own: a history.) -/
def run (s : State P) : List (Call P) → Option (State P)
  | [] => some s
  | c :: cs => (step s c).state.bind fun s' => run s' cs

/-- `insertionIndex` of a vertex of the grid (grid/implicitgridfactory.hh:228-231). -/
def insertionIndex (s : State P) (h : Nat) : Option Nat := (s.verts[h]?).map (·.id)

/-- mmesh.hh:607-622 `isInterface` of the facet with the given vertices, after `createGrid` (257-263) has passed the members on unchanged: false as
soon as a vertex is not flagged, otherwise the lookup of the sorted ids. -/
def isInterface (s : State P) (facet : List (Vtx P)) : Bool :=
  facet.all (·.isInterface) && (Map.find s.interfaceSegments (sortIds (facet.map (·.id)))).isSome

end Verif.Implicit
