import Verif.Util.Map
import Verif.RefElem.Props

/-!
# Adaptation: the queues of requests and the loops of `adapt_`

Two models. The first follows the loops of `adapt_` with the outcome of every request given from outside (whether the edge
still exists, whether the edge to the interface vertex exists is decided by the host grid). The second follows the queues
of requests over all calls.
-/

namespace Verif.Adapt

open Verif RefElem

/-! ## The loops of `adapt_` -/

/-- What happens to an insertion request (mmesh.hh:1227-1319). -/
inductive Outcome
  /-- The stored edge is not the requested one any more: an empty handle is stored (mmesh.hh:1235-1242). -/
  | stale
  /-- A vertex is inserted and stored (mmesh.hh:1251-1318). -/
  | inserted
  /-- The vertex is inserted, but not joined with the interface vertex: `continue` (mmesh.hh:1274-1282). -/
  | failed
  deriving DecidableEq

/-- Vertices of the triangulation, the next unused name, and `newVertices` (mmesh.hh:1226). -/
structure Loop where
  verts : List Nat
  next : Nat
  newVertices : List (Option Nat)
  deriving DecidableEq

/-- One turn of the insertion loop (mmesh.hh:1227-1319). For `failed` the first vertex that was inserted is removed again and
another one is inserted, so one vertex is left. -/
def insertOne (l : Loop) : Outcome → Loop
  | .stale => { l with newVertices := l.newVertices ++ [none] }
  | .inserted => { verts := l.verts ++ [l.next], next := l.next + 1, newVertices := l.newVertices ++ [some l.next] }
  | .failed => { l with verts := l.verts ++ [l.next], next := l.next + 1 }

/-- One turn of the removal loop (mmesh.hh:1323-1335): the flag tells whether the vertex is removed from the triangulation; it is
not for interface vertices whose number of segments is not two (mmesh.hh:1619-1620). -/
def removeOne (l : Loop) (r : Nat × Bool) : Loop := if r.2 then { l with verts := l.verts.filter (· ≠ r.1) } else l

/-- `adapt_` (mmesh.hh:1180-1363) on the triangulation, with its return value. -/
def adapt_ (verts : List Nat) (next : Nat) (ins : List Outcome) (rem : List (Nat × Bool)) : Loop × Bool :=
  if ins.length = 0 ∧ rem.length = 0 then (⟨verts, next, []⟩, false)
  else
    let l := rem.foldl removeOne (ins.foldl insertOne ⟨verts, next, []⟩)
    (l, l.newVertices.length > 0)

/-- `adapt(handle)` of both grids (mmesh.hh:1138-1165, interface/grid.hh:388-415): the result of `adapt()` is dropped. -/
def adaptHandle (verts : List Nat) (next : Nat) (ins : List Outcome) (rem : List (Nat × Bool)) : Loop × Bool :=
  ((adapt_ verts next ins rem).1, true)

/-- The calls of `markElementsAfterInsertion_` (mmesh.hh:1349-1354): new vertices with the component given to the elements around
them. `ids` is `insertComponentIds`. -/
def assignments (newVertices : List (Option Nat)) (ids : List Nat) : List (Nat × Nat) :=
  (newVertices.zip ids).filterMap fun p => p.1.map fun v => (v, p.2)

/-! ## The queues -/

/-- An entry of `insert_`: a request for the edge with this id, or a point in a cell (mmesh.hh:128-143). `dedup` tells
whether it was pushed under the protection of `inserted_`. -/
structure Entry where
  edge : Option (List Nat)
  dedup : Bool
  deriving DecidableEq

/-- Queues `insert_`, `remove_`, sets `inserted_`, `removed_` (mmesh.hh:1805-1811), marks of the bulk elements and of the interface
elements (map `mark_`). -/
structure Queues where
  insert : List Entry
  inserted : List (List Nat)
  remove : List Nat
  removed : List Nat
  mark : Nat → Int
  imark : List (Nat × Int)

/-- A fresh grid. (Models: mmesh.hh:1805-1811, cgal/defaults.hh:31.) -/
def init : Queues := ⟨[], [], [], [], fun _ => 0, []⟩

/-- `if (inserted_.insert(ip.edgeId).second) insert_.push_back(ip)` (mmesh.hh:788-792, 847-852, 880-885). -/
def pushEdge (q : Queues) (k : List Nat) : Queues :=
  if k ∈ q.inserted then q else { q with inserted := k :: q.inserted, insert := q.insert ++ [⟨some k, true⟩] }

/-- `if (removed_.insert(id).second) remove_.push_back(vh)` (mmesh.hh:815-820, 860-866, 894-900, 959-966, 994-1002, 1115-1122). -/
def pushRemove (q : Queues) (v : Nat) : Queues :=
  if v ∈ q.removed then q else { q with removed := v :: q.removed, remove := q.remove ++ [v] }

/-- `insert_.push_back(ip)` without protection: insertVertexInCell (mmesh.hh:800), addToInterface (mmesh.hh:1450), crossing (mmesh.hh:1070). -/
def pushFree (q : Queues) (k : Option (List Nat)) : Queues := { q with insert := q.insert ++ [⟨k, false⟩] }

/-- The grid as `adapt()` sees it: elements with the edge and the vertex chosen by the refinement strategy, the same
for
the interface elements, and the interface edges. (Models: mmesh.hh:828-901.) -/
structure View where
  elems : List Nat
  refEdge : Nat → List Nat
  coarse : Nat → Option Nat
  ielems : List Nat
  irefEdge : Nat → List Nat
  icoarse : Nat → Option Nat
  isInterface : List Nat → Bool

/-- One turn of the loop over the bulk elements (mmesh.hh:829-866). -/
def bulkOne (g : View) (q : Queues) (e : Nat) : Queues :=
  if q.mark e = 1 then (if g.isInterface (g.refEdge e) then q else pushEdge q (g.refEdge e))
  else if q.mark e = -1 then (match g.coarse e with | some v => pushRemove q v | none => q)
  else q

/-- The loop over the bulk elements (mmesh.hh:827-867). -/
def collectBulk (g : View) (q : Queues) : Queues := g.elems.foldl (bulkOne g) q

/-- `getMark` of the interface grid (interface/grid.hh:369-375). -/
def igetMark (q : Queues) (e : Nat) : Int := (Map.find q.imark e).getD 0

/-- One turn of the loop over the interface elements (mmesh.hh:872-901). -/
def interfaceOne (g : View) (q : Queues) (e : Nat) : Queues :=
  if igetMark q e = 1 then pushEdge q (g.irefEdge e)
  else if igetMark q e = -1 then (match g.icoarse e with | some v => pushRemove q v | none => q)
  else q

/-- The loop over the interface elements (mmesh.hh:870-903). -/
def collectInterface (g : View) (q : Queues) : Queues := g.ielems.foldl (interfaceOne g) q

/-- Calls. `refineEdge`, `cell`, `extend`, `cross`, `removeVertex` (also by ensureInterfaceMovement and
ensureVertexMovement), `mark` of both grids, `adapt` (of both grids: interface/grid.hh:385), and `postAdapt` of both grids. -/
inductive Op
  | refineEdge (k : List Nat)
  | cell
  | extend
  | cross (k : List Nat)
  | removeVertex (v : Nat)
  | mark (r : Int) (e : Nat)
  | imark (r : Int) (e : Nat)
  | adapt (g : View)
  | postAdapt (leaf : List Nat)
  | ipostAdapt

/-- One call. `postAdapt` is mmesh.hh:1456-1474, `ipostAdapt` interface/grid.hh:418-421. -/
def step (q : Queues) : Op → Queues
  | .refineEdge k => pushEdge q k
  | .cell => pushFree q none
  | .extend => pushFree q none
  | .cross k => pushFree q (some k)
  | .removeVertex v => pushRemove q v
  | .mark r e => { q with mark := fun x => if x = e then r else q.mark x }
  | .imark r e => if r ≠ 0 then { q with imark := Map.set q.imark e r } else q
  | .adapt g => collectInterface g (collectBulk g q)
  | .postAdapt leaf => { q with mark := fun x => if x ∈ leaf then 0 else q.mark x
                                insert := [], remove := [], inserted := [], removed := [] }
  | .ipostAdapt => { q with imark := [] }

/-- All calls from a fresh grid. (Models: no code of its own: a history.) -/
def run (ops : List Op) : Queues := ops.foldl step init

/-! ## Splitting of edges -/

/-- Edges of the host grid by handles of their end points, and the ids stored in the vertices. (Models: mmesh.hh:1811
`hostgrid_`, cgal/defaults.hh:40-48.) -/
structure Host where
  edges : List (List Nat)
  id : Nat → Nat
  next : Nat

/-- A pending request: the id it was made for, and whether the copy of the edge in the queue has its id cached
(entity.hh:350-362; filled by the check in mmesh.hh:1235, not copied by the copy constructor entity.hh:88). -/
structure Pending where
  edgeId : List Nat
  cached : Bool

/-- Processing of an edge request (mmesh.hh:1231-1254). The stored host edge (face and index) designates some edge `e` of
the current triangulation. The request is dropped if the id of `e` differs from the recorded one, where a cached id is
always the recorded one. Otherwise `e` is split; the new vertex `v` keeps the value `junk` that its `info().id` happens to
have (`VertexInfo::id` has no initialiser, cgal/defaults.hh:40-42) unless `isInterface`, where `setNextId` is called
(mmesh.hh:1561). The index of the outcome is the edge that is split. -/
inductive Process (isInterface : Bool) (h : Host) (p : Pending) : Option (List Nat) → Host → Prop
  | stale {e} : e ∈ h.edges → p.cached = false → sortIds (e.map h.id) ≠ p.edgeId → Process isInterface h p none h
  | split {e E' fresh junk} : e ∈ h.edges → (p.cached = true ∨ sortIds (e.map h.id) = p.edgeId) →
      (isInterface = true → ∀ x < h.next, h.id x ≠ fresh) →
      (∀ x ∈ h.edges, x ≠ e → x ∈ E') → e ∉ E' → (∀ x ∈ E', x ∈ h.edges ∨ (h.next ∈ x ∧ ∀ y ∈ x, y ≤ h.next)) →
      Process isInterface h p (some e)
        ⟨E', fun x => if x = h.next then (if isInterface then fresh else junk) else h.id x, h.next + 1⟩

end Verif.Adapt
