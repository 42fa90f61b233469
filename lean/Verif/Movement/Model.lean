import Mathlib.Algebra.Group.Basic
import Mathlib.Order.Basic

/-!
# Movement of vertices: `moveVertices`, `moveInterface`, `ensureVertexMovement`, `ensureInterfaceMovement`

`P` are positions and shifts with the operations of the vector type, `K` are volumes. Nothing is assumed about the
arithmetic in the model, so that rounding can be discussed.
-/

namespace Verif.Movement

/-- What the functions read and do not change. Vertices are named by handles. (Models: mmesh.hh:920-1130, 1407-1430.)
-/
structure Grid (P K : Type) where
  /-- dimension 3 instead of 2 -/
  dim3 : Bool
  /-- the vertices in the order of `vertices(leafGridView())` -/
  verts : List Nat
  /-- `leafIndexSet().index` -/
  index : Nat → Nat
  /-- the interface vertices in the order of `vertices(interfaceGrid().leafGridView())` -/
  iverts : List Nat
  /-- `interfaceGrid().leafIndexSet().index` -/
  iindex : Nat → Nat
  /-- the elements by their vertices -/
  cells : List (List Nat)
  /-- the flag read by `v.impl().isInterface()` -/
  isInterface : Nat → Bool
  /-- interface elements by their end points (2D) -/
  segs : List (Nat × Nat)
  /-- what `RefinementStrategy::boundaryFlag` computes from the positions on first use is 1
  (longestedgerefinement.hh:127-148) -/
  corner : (Nat → P) → Nat → Bool
  /-- `signedVolume_` (mmesh.hh:1168-1178) -/
  vol : (Nat → P) → List Nat → K
  /-- the intersection point of the lines through an interface edge and a crossing edge is outside of the former
  (mmesh.hh:1032-1044) -/
  outside : (Nat → P) → Nat × Nat → Nat × Nat → Bool

/-- What the functions change: positions, cached boundary flags, the queue `remove_` (with the set `removed_` of the same
content, see C29) and the crossings pushed to `insert_` (interface edge and third vertex). -/
structure State (P : Type) where
  pos : Nat → P
  flag : Nat → Option Bool
  remove : List Nat
  cross : List ((Nat × Nat) × Nat)

/-- How a call ends. (Models: mmesh.hh:931, 943, 1105.) -/
inductive End
  | returned (change : Bool)
  | thrown
  /-- access to an index outside of the vector or to a default constructed entity -/
  | undefined
  deriving DecidableEq

section
variable {P K : Type} [Add P] [Sub P] [Neg P] [Zero P] [Zero K] [LE K] [DecidableLE K]

/-- `vh->point() = makePoint(center + shift)` for the vertices `vs` one after the other; `none`: index out of range.
(Models: mmesh.hh:1407-1430.) -/
def moveList (idx : Nat → Nat) (shifts : List P) : List Nat → (Nat → P) → Option (Nat → P)
  | [], pos => some pos
  | v :: vs, pos =>
    match shifts[idx v]? with
    | none => none
    | some s => moveList idx shifts vs (fun x => if x = v then pos x + s else pos x)

/-- `moveVertices` (mmesh.hh:1421-1430). -/
def moveVertices (g : Grid P K) (shifts : List P) (pos : Nat → P) : Option (Nat → P) :=
  moveList g.index shifts g.verts pos

/-- `moveInterface` (mmesh.hh:1407-1416). -/
def moveInterface (g : Grid P K) (shifts : List P) (pos : Nat → P) : Option (Nat → P) :=
  moveList g.iindex shifts g.iverts pos

/-- `RefinementStrategy::boundaryFlag(v) == 1` (longestedgerefinement.hh:124-151): computed on first use, then cached. -/
def boundaryFlag (g : Grid P K) (s : State P) (v : Nat) : Bool × State P :=
  match s.flag v with
  | some b => (b, s)
  | none => (g.corner s.pos v, { s with flag := fun x => if x = v then some (g.corner s.pos v) else s.flag x })

/-- `removed_.insert(id).second`, `remove_.push_back`, `change = true` (mmesh.hh:953-960, 986-993, 1115-1122). -/
def pushRemove (s : State P) (change : Bool) (v : Nat) : State P × Bool :=
  if v ∈ s.remove then (s, change) else ({ s with remove := s.remove ++ [v] }, true)

/-- The loop over the vertices of a degenerate cell (mmesh.hh:945-963 and 1108-1123). The last component is
`allInterface`. -/
def removeFree (g : Grid P K) : List Nat → State P → Bool → Bool → State P × Bool × Bool
  | [], s, change, all => (s, change, all)
  | v :: vs, s, change, all =>
    if g.isInterface v then removeFree g vs s change all
    else if (boundaryFlag g s v).1 then removeFree g vs (boundaryFlag g s v).2 change all
    else removeFree g vs (pushRemove (boundaryFlag g s v).2 change v).1 (pushRemove (boundaryFlag g s v).2 change v).2 false

/-- The loop over the elements in `ensureVertexMovement` (mmesh.hh:1101-1126). -/
def vertexLoop (g : Grid P K) : List (List Nat) → State P → Bool → End × State P
  | [], s, change => (.returned change, s)
  | c :: cs, s, change =>
    if g.vol s.pos c ≤ 0 then
      if g.dim3 then (.thrown, s)
      else vertexLoop g cs (removeFree g c s change true).1 (removeFree g c s change true).2.1
    else vertexLoop g cs s change

/-- `ensureVertexMovement` (mmesh.hh:1094-1134). -/
def ensureVertexMovement (g : Grid P K) (shifts : List P) (s : State P) : End × State P :=
  match moveVertices g shifts s.pos with
  | none => (.undefined, s)
  | some pos =>
    match vertexLoop g g.cells { s with pos := pos } false with
    | (.returned change, s') =>
      match moveVertices g (shifts.map (- ·)) s'.pos with
      | none => (.undefined, s')
      | some pos' => (.returned change, { s' with pos := pos' })
    | r => r

/-- The interface edges of a triangle: sub-entities 0, 1, 2 of codimension 1 that are interface (mmesh.hh:969-982). -/
def interfaceEdges (g : Grid P K) : List Nat → List (Nat × Nat)
  | [a, b, c] => [(a, b), (a, c), (b, c)].filter fun e => decide (e ∈ g.segs ∨ (e.2, e.1) ∈ g.segs)
  | _ => []

/-- The interface elements at a vertex, `incidentInterfaceElements` (mmesh.hh:1015). -/
def incident (g : Grid P K) (v : Nat) : List (Nat × Nat) := g.segs.filter fun e => decide (e.1 = v ∨ e.2 = v)

/-- Removal of interface vertices of a cell without interface edge (mmesh.hh:985-1003); the last component is
`allNonRemovable`. `isRemoveable` is longestedgerefinement.hh:155-163. -/
def removeInterface (g : Grid P K) : List Nat → State P → Bool → Bool → State P × Bool × Bool
  | [], s, change, all => (s, change, all)
  | v :: vs, s, change, all =>
    if (incident g v).length = 2 then removeInterface g vs (pushRemove s change v).1 (pushRemove s change v).2 false
    else removeInterface g vs s change all

/-- The vertex that is not on the interface edge (mmesh.hh:1010-1018): the last one that fits. -/
def thirdVertex (e : Nat × Nat) (c : List Nat) : Option Nat := c.reverse.find? fun v => decide (v ≠ e.1 ∧ v ≠ e.2)

/-- A cell with non-positive volume in 2D (mmesh.hh:943-1081) with the local copy of the shifts. `none`: the loop goes on. -/
def badCell (g : Grid P K) (c : List Nat) (s : State P) (shifts : List P) (change : Bool) :
    Option End × State P × List P × Bool :=
  let r := removeFree g c s change true
  if r.2.2 = false then (none, r.1, shifts, r.2.1)
  else match interfaceEdges g c with
    | _ :: _ :: _ => (some .thrown, r.1, shifts, r.2.1)
    | [] =>
      let q := removeInterface g c r.1 r.2.1 true
      if q.2.2 then (some .thrown, q.1, shifts, q.2.1) else (none, q.1, shifts, q.2.1)
    | [e] =>
      match thirdVertex e c with
      | none => (some .undefined, r.1, shifts, r.2.1)
      | some t =>
        match incident g t with
        | [] => (some .undefined, r.1, shifts, r.2.1)
        | _ :: _ :: _ => (some .thrown, r.1, shifts, r.2.1)
        | [ce] =>
          if g.outside r.1.pos e ce then (none, r.1, shifts, r.2.1)
          else match shifts[g.iindex t]? with
            | none => (some .undefined, r.1, shifts, r.2.1)
            | some d =>
              (none, { r.1 with pos := fun x => if x = t then r.1.pos x - d else r.1.pos x
                                cross := r.1.cross ++ [(e, t)] }, shifts.set (g.iindex t) 0, true)

/-- The loop over the elements in `ensureInterfaceMovement` (mmesh.hh:934-1082). -/
def interfaceLoop (g : Grid P K) : List (List Nat) → State P → List P → Bool → End × State P × List P
  | [], s, shifts, change => (.returned change, s, shifts)
  | c :: cs, s, shifts, change =>
    if g.vol s.pos c ≤ 0 then
      if g.dim3 then (.thrown, s, shifts)
      else match badCell g c s shifts change with
        | (some e, s', shifts', _) => (e, s', shifts')
        | (none, s', shifts', change') => interfaceLoop g cs s' shifts' change'
    else interfaceLoop g cs s shifts change

/-- `ensureInterfaceMovement` (mmesh.hh:919-1088). -/
def ensureInterfaceMovement (g : Grid P K) (shifts : List P) (s : State P) : End × State P :=
  if ∃ c ∈ g.cells, g.vol s.pos c ≤ 0 then (.thrown, s)
  else match moveInterface g shifts s.pos with
    | none => (.undefined, s)
    | some pos =>
      match interfaceLoop g g.cells { s with pos := pos } shifts false with
      | (.returned change, s', shifts') =>
        match moveInterface g (shifts'.map (- ·)) s'.pos with
        | none => (.undefined, s')
        | some pos' => (.returned change, { s' with pos := pos' })
      | (e, s', _) => (e, s')

end

end Verif.Movement
