import Verif.Util.Map
import Verif.RefElem.Props

/-!
# Refinement marks of bulk and interface elements

Bulk elements are host cells, named by numbers; interface elements are lists of vertex ids in slot order.
The mesh itself does not change in this model: it covers what happens between two calls of `adapt`.
-/

namespace Verif.Marks

open Verif RefElem

/-- State of the marks: `info().mark` per host cell (cgal/defaults.hh:26-38), the counters of marked elements
(grid/mmesh.hh:1787-1788), the queue of vertices to remove (mmesh.hh:1807) and the marks of the interface grid
(interface/grid.hh, member mark_, keyed by the id of the element, i.e. its sorted vertex ids). -/
structure State where
  mark : Nat → Int
  refineMarked : Nat
  coarsenMarked : Nat
  remove : List Nat
  imark : List (List Nat × Int)

/-- A fresh grid. `mark = 0` by cgal/defaults.hh:30. The counters are not initialised by the constructor
(mmesh.hh:282-301, 1787-1788); the model takes the value they have after the first `postAdapt`. -/
def init : State := ⟨fun _ => 0, 0, 0, [], []⟩

/-- `MMesh::mark` (mmesh.hh:725-731) with `Entity::mark` (entity.hh:542). -/
def mark (s : State) (r : Int) (e : Nat) : State :=
  { s with
    mark := fun x => if x = e then r else s.mark x
    refineMarked := if r > 0 then s.refineMarked + 1 else s.refineMarked
    coarsenMarked := if r < 0 then s.coarsenMarked + 1 else s.coarsenMarked }

/-- `MMesh::getMark` (mmesh.hh:757-759) with `Entity::getMark` (entity.hh:545). -/
def getMark (s : State) (e : Nat) : Int := s.mark e

/-- `MMesh::postAdapt` (mmesh.hh:1456-1474): marks 0 every leaf element, then resets the counters and queues.
The other members it resets are not part of this model. -/
def postAdapt (s : State) (leaf : List Nat) : State :=
  { leaf.foldl (fun (t : State) (e : Nat) => mark t 0 e) s with refineMarked := 0, coarsenMarked := 0, remove := [] }

/-- `MMesh::removeVertex` (mmesh.hh:814-821); the duplicate check through removed_ is left out here. -/
def removeVertex (s : State) (v : Nat) : State := { s with remove := s.remove ++ [v] }

/-- `MMeshInterfaceGrid::mark` (interface/grid.hh:356-363), the state after the call. -/
def imark (s : State) (r : Int) (e : List Nat) : State :=
  if r ≠ 0 then { s with imark := Map.set s.imark (sortIds e) r } else s

/-- What `MMeshInterfaceGrid::mark` returns (interface/grid.hh:356-363). -/
def imarkResult (r : Int) : Bool := if r ≠ 0 then true else false

/-- `MMeshInterfaceGrid::getMark` (interface/grid.hh:369-375). -/
def igetMark (s : State) (e : List Nat) : Int :=
  match Map.find s.imark (sortIds e) with
  | some r => r
  | none => 0

/-- `MMeshInterfaceGrid::preAdapt` (interface/grid.hh:378). -/
def ipreAdapt (s : State) : Bool := s.imark.length > 0

/-- `MMesh::preAdapt` (mmesh.hh:762-765). -/
def preAdapt (s : State) : Bool := ipreAdapt s || s.coarsenMarked > 0 || s.remove.length > 0

/-- `MMeshInterfaceGrid::postAdapt` (interface/grid.hh:418-421). -/
def ipostAdapt (s : State) : State := { s with imark := [] }

/-- `MMesh::markElements` (mmesh.hh:736-751): `ind`, `iind` are the values of the remeshing indicator. -/
def markElements (s : State) (leaf : List Nat) (ileaf : List (List Nat)) (ind : Nat → Int) (iind : List Nat → Int) :
    State × Bool :=
  let a := leaf.foldl (fun (t : State × Bool) (e : Nat) => (mark t.1 (ind e) e, t.2 || ind e != 0)) (s, false)
  ileaf.foldl (fun (t : State × Bool) (e : List Nat) => (imark t.1 (iind e) e, t.2 || iind e != 0)) a

/-- The calls a user can make between two calls of `adapt`. (Models: mmesh.hh:725-760, interface/grid.hh:350-375.) -/
inductive Op
  | mark (r : Int) (e : Nat)
  | imark (r : Int) (e : List Nat)
  | postAdapt
  | ipostAdapt
  | removeVertex (v : Nat)

/-- One call. (Models: mmesh.hh:725-760, interface/grid.hh:350-375.) -/
def step (leaf : List Nat) (s : State) : Op → State
  | .mark r e => mark s r e
  | .imark r e => imark s r e
  | .postAdapt => postAdapt s leaf
  | .ipostAdapt => ipostAdapt s
  | .removeVertex v => removeVertex s v

/-- A sequence of calls. (Models: no code of its own: a history.) -/
def run (leaf : List Nat) (ops : List Op) : State := ops.foldl (step leaf) init

end Verif.Marks
