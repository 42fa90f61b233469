import Verif.Util.Map
import Verif.RefElem.Lemmas

/-!
# Grid factory of the interface grid (interface/gridfactory.hh)

The host grid is a list of vertices; a handle is a position in the list. CGAL's `insert` returns the vertex at the given point if there is one and creates a
vertex otherwise; a new vertex has an uninitialised id (`junk`), because `id` has no initialiser (cgal/defaults.hh:41). The triangles are not modelled.
-/

namespace Verif.InterfaceFactory

open Verif RefElem

variable {P : Type} [DecidableEq P]

/-- A vertex of the host grid (cgal/defaults.hh:38-49). -/
structure Vtx (P : Type) where
  point : P
  id : Nat
  idWasSet : Bool
  isInterface : Bool

/-- The host grid with its interface segments, and the members of the factory (interface/gridfactory.hh:204-211). -/
structure State (P : Type) where
  verts : List (Vtx P)
  interfaceSegments : List (List Nat × Nat)
  vertexIdMap : List Nat := []
  insertionIndexMap : List (List Nat × Nat) := []
  countElements : Nat := 0

/-- Calls of a user; `junk` is the content of the memory of a new vertex. (Models: interface/gridfactory.hh:78-145.)
-/
inductive Call (P : Type) where
  | insertVertex (pos : P) (junk : Nat)
  | addVertexHandle (handle : Nat)
  | insertElement (vertices : List Nat)

/-- interface/gridfactory.hh:128-131, 142-145: the id of the vertex is stored, its flag is set. -/
def register (s : State P) (verts : List (Vtx P)) (h : Nat) : State P :=
  match verts[h]? with
  | none => { s with verts := verts }
  | some v => { s with
      verts := verts.modify h fun v => { v with isInterface := true }
      vertexIdMap := s.vertexIdMap ++ [v.id] }

/-- `getHostGrid().insert(makePoint(pos))` (interface/gridfactory.hh:126). -/
def hostInsert (verts : List (Vtx P)) (pos : P) (junk : Nat) : Nat × List (Vtx P) :=
  match verts.findIdx? (fun v => v.point = pos) with
  | some h => (h, verts)
  | none => (verts.length, verts ++ [⟨pos, junk, false, false⟩])

/-- One call; `none` is the exception of `vertexIdMap_.at` (interface/gridfactory.hh:82). `vertexIdMap_` maps 0, 1, 2, … so that it is a list. -/
def step (s : State P) : Call P → Option (State P)
  | .insertVertex pos junk => let r := hostInsert s.verts pos junk; some (register s r.2 r.1)
  | .addVertexHandle h => some (register s s.verts h)
  | .insertElement vs =>
    match vs.mapM fun v => s.vertexIdMap[v]? with
    | none => none
    | some ids => some { s with
        interfaceSegments := Map.insert s.interfaceSegments (sortIds ids) 1
        insertionIndexMap := Map.insert s.insertionIndexMap (sortIds ids) s.countElements
        countElements := s.countElements + 1 }

/-- A history of calls. (Models: no code of its own: a history.) -/
def run (s : State P) : List (Call P) → Option (State P)
  | [] => some s
  | c :: cs => (step s c).bind fun s' => run s' cs

/-- mmesh.hh:607-622 `isInterface` of the facet with the given vertices. -/
def isInterface (s : State P) (facet : List (Vtx P)) : Bool :=
  facet.all (·.isInterface) && (Map.find s.interfaceSegments (sortIds (facet.map (·.id)))).isSome

/-- `insertionIndex` of an interface element (interface/gridfactory.hh:152-167): 0 if it is not found. -/
def insertionIndex (s : State P) (facet : List (Vtx P)) : Nat :=
  match Map.find s.insertionIndexMap (sortIds (facet.map (·.id))) with
  | some i => i
  | none => 0

/-- grid/indexsets.hh:405-411, 425-431: the update of the ids of the host grid, which happens the next time the grid is updated (mmesh.hh:310, 318). `next` is
`nextVertexId_`. -/
def updateIds : List (Vtx P) → Nat → List (Vtx P)
  | [], _ => []
  | v :: t, n => if v.idWasSet then v :: updateIds t n else { v with id := n, idWasSet := true } :: updateIds t (n + 1)

end Verif.InterfaceFactory
