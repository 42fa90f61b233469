import Verif.Util.Map
import Verif.RefElem.Props

/-!
# Operations on the interface (2D)

Vertices are named by their ids; facets are edges, given by the sorted list of their two vertex ids, as in the keys of
`interfaceSegments_`. The host grid is represented by the list of its finite edges; what an operation of the host grid
does to the edges is stated as a contract (`SplitEdge`, `AddVertex`, `RemoveVertex`). Ids that `setIds` assigns later to
new bulk vertices are given to them at insertion; names of vertices do not matter for the interface as long as they are
fresh.
-/

namespace Verif.InterfaceOps

open Verif RefElem

/-- Key of the facet with the end points `a`, `b` (`std::sort` of the ids). (Models: mmesh.hh:617, 1300.) -/
def key (a b : Nat) : List Nat := sortIds [a, b]

/-- The part of the grid that concerns the interface: `interfaceSegments_` (grid/mmesh.hh:1813), the flags
`info().isInterface` (cgal/defaults.hh:45), the finite edges of the host grid and the next unused vertex id. -/
structure State where
  segs : List (List Nat × Nat)
  flag : Nat → Bool
  edges : List (List Nat)
  next : Nat

/-! ## Queries -/

/-- `isInterface` of a codim-1 entity of the bulk grid (mmesh.hh:607-621) with vertices `l` in slot order. The vector of
ids is static in the code; within one thread it is completely overwritten before it is used. -/
def isInterfaceBulk (s : State) (l : List Nat) : Bool :=
  l.all s.flag && (Map.find s.segs (sortIds l)).isSome

/-- `isInterface` of an intersection of the bulk grid (mmesh.hh:596-598): converts to the codim-1 entity. -/
def isInterfaceIntersection (s : State) (l : List Nat) : Bool := isInterfaceBulk s l

/-- `isInterface` of a host facet in the interface grid (interface/grid.hh:513-517, 621-630). -/
def isInterfaceGrid (s : State) (l : List Nat) : Bool := (Map.find s.segs (sortIds l)).isSome

/-! ## Operations -/

/-- `addInterface` (mmesh.hh:374-392), for the facet with vertices `l` (any dimension). -/
def addInterface (s : State) (l : List Nat) (marker : Nat) : State :=
  if isInterfaceBulk s l then s
  else { s with
    segs := Map.insert s.segs (sortIds l) marker
    flag := fun v => if v ∈ l then true else s.flag v }

/-- The new segments in `insertInInterface_` for a grid of dimension `dim` (mmesh.hh:1564-1575): for every `i < dim` the
new id and `ids[(i + j) % dimension]` for `j < dim - 1`. `ids` are the vertex ids of the split edge. `none` is an access
outside of the vector. -/
def newSegments (dim : Nat) (ids : List Nat) (id : Nat) : Option (List (List Nat)) :=
  (List.range dim).mapM fun i =>
    ((List.range (dim - 1)).mapM fun j => ids[(i + j) % dim]?).map fun l => sortIds (id :: l)

/-- `insertInInterface_` (mmesh.hh:1541-1581) on the segments and flags; `id` is the id of the inserted vertex.
`interfaceSegments_[ids]` yields 0 for a missing key (and inserts it, but it is erased at once). -/
def insertInInterface (dim : Nat) (s : State) (edge : List Nat) (id : Nat) : Option State :=
  let ids := sortIds edge
  let marker := (Map.find s.segs ids).getD 0
  let segs := Map.erase s.segs ids
  (newSegments dim ids id).map fun new =>
    { s with
      segs := new.foldl (fun (m : List (List Nat × Nat)) (k : List Nat) => Map.insert m k marker) segs
      flag := fun v => if v = id then true else s.flag v }

/-- The loop of `removeFromInterface_` over the incident interface elements (mmesh.hh:1594-1617): `others` are their other
end points in the order of iteration. State: the segments, `marker` and the ids of `otherVhs`. -/
def collect (segs : List (List Nat × Nat)) (v : Nat) (others : List Nat) : List (List Nat × Nat) × Nat × List Nat :=
  others.foldl
    (fun (r : List (List Nat × Nat) × Nat × List Nat) (o : Nat) =>
      match Map.find r.1 (key v o) with
      | some m => (Map.erase r.1 (key v o), m, r.2.2 ++ [o])
      | none => r)
    (segs, 1, [])

/-- `removeFromInterface_` (mmesh.hh:1586-1637) on the segments: `star` are the other end points of the edges at `v` in
the order of the circulator (interface/incidentiterator.hh:181-190). The second component tells the two end points
between which the host grid is remeshed; `none` means that the host grid is left as it is. -/
def removeFromInterface (s : State) (v : Nat) (star : List Nat) : State × Option (Nat × Nat) :=
  let r := collect s.segs v (star.filter fun o => isInterfaceBulk s [v, o])
  match r.2.2 with
  | [o, o'] => ({ s with segs := Map.insert r.1 (key o o') r.2.1 }, some (o, o'))
  | _ => ({ s with segs := r.1 }, none)

/-- Connecting a new vertex with `ip.v0` (mmesh.hh:1292-1301). -/
def connect (s : State) (id v0 : Nat) : State :=
  { s with
    segs := Map.insert s.segs (key id v0) 1
    flag := fun v => if v = id then true else s.flag v }

/-! ## Contracts of the host grid -/

/-- `c` is an end point of some edge. (Models: no code of its own.) -/
def IsVertex (E : List (List Nat)) (c : Nat) : Prop := ∃ e ∈ E, c ∈ e

/-- `insert_in_edge`: the edge is replaced by its halves; the new vertex is joined with some more vertices of the
mesh. (Models: CGAL, not part of /repo; called in mmesh.hh:1379-1389.) -/
def SplitEdge (E : List (List Nat)) (a b v : Nat) (E' : List (List Nat)) : Prop :=
  key a b ∈ E ∧ ∃ opp : List Nat, (∀ c ∈ opp, IsVertex E c) ∧ ∀ e, e ∈ E' ↔ (e ∈ E ∧ e ≠ key a b) ∨ e = key v a ∨ e = key v b ∨ ∃ c ∈ opp, e = key v c

/-- `insert_in_face`: the new vertex is joined with some vertices of the mesh. (Models: CGAL, not part of /repo;
called in mmesh.hh:1391-1401.) -/
def AddVertex (E : List (List Nat)) (v : Nat) (E' : List (List Nat)) : Prop :=
  ∃ opp : List Nat, (∀ c ∈ opp, IsVertex E c) ∧ ∀ e, e ∈ E' ↔ e ∈ E ∨ ∃ c ∈ opp, e = key v c

/-- Removal of a vertex: exactly the edges at the vertex vanish, the hole is filled by some edges between other
vertices of
the mesh. (Models: CGAL, not part of /repo; called in cgal/triangulationwrapper.hh:55-62, 105-111.) -/
def RemoveVertex (E : List (List Nat)) (v : Nat) (E' : List (List Nat)) : Prop :=
  (∀ e ∈ E, v ∉ e → e ∈ E') ∧
    ∀ e ∈ E', v ∉ e ∧ (e ∈ E ∨ ∃ a b, a ≠ b ∧ e = key a b ∧ IsVertex E a ∧ IsVertex E b)

/-- `star` lists the other end points of the edges at `v`, each once. (Models: mmesh.hh:1590-1612.) -/
def Star (E : List (List Nat)) (v : Nat) (star : List Nat) : Prop := star.Nodup ∧ ∀ o, o ∈ star ↔ o ≠ v ∧ key v o ∈ E

/-! ## Requests and adaptation -/

/-- Insertion requests (mmesh.hh:128-143): an edge with the recorded `isInterface` (refineEdge mmesh.hh:768-793, marked
elements 826-905), a point in a cell (796-803), the extension of the interface from a vertex (addToInterface 1435-1453)
and the point where the interface edge `a b` is crossed by a segment that ends in `c` (1048-1068). -/
inductive Req
  | edge (a b : Nat) (isInterface : Bool)
  | cell
  | extend (v0 : Nat)
  | cross (a b c : Nat)

/-- Processing of an insertion request in `adapt_` (mmesh.hh:1226-1319). The new vertex gets the id `v`. `careful = false`
is the code; with `careful = true` only those runs are considered in which a crossing point is still joined with the third
vertex. -/
inductive Insert (careful : Bool) (s : State) : Req → State → Prop
  /-- The stored edge handle refers to another edge now (mmesh.hh:1235-1242). -/
  | stale {a b i} : Insert careful s (.edge a b i) s
  /-- 1253 -/
  | bulk {a b v E'} : s.next ≤ v → SplitEdge s.edges a b v E' →
      Insert careful s (.edge a b false) { s with edges := E', next := v + 1 }
  /-- 1251 -/
  | interface {a b v E' s'} : s.next ≤ v → SplitEdge s.edges a b v E' → insertInInterface 2 s [a, b] v = some s' →
      Insert careful s (.edge a b true) { s' with edges := E', next := v + 1 }
  /-- 1257 without `v0` -/
  | cell {v E'} : s.next ≤ v → AddVertex s.edges v E' → Insert careful s .cell { s with edges := E', next := v + 1 }
  /-- 1257-1289 with an edge between `v0` and the new vertex, and 1292-1301. The vertex `v` may be the one inserted at half
  the distance after the first one was removed again. -/
  | extend {v0 v E'} : s.next ≤ v → AddVertex s.edges v E' → key v v0 ∈ E' →
      Insert careful s (.extend v0) { connect s v v0 with edges := E', next := v + 1 }
  /-- 1274-1282: no such edge. -/
  | noEdge {v0 v E'} : s.next ≤ v → AddVertex s.edges v E' → Insert careful s (.extend v0) { s with edges := E', next := v + 1 }
  | crossStale {a b c} : Insert careful s (.cross a b c) s
  /-- 1245-1251 with `connect` and 1292-1301. -/
  | cross {a b c v E' s'} : s.next ≤ v → SplitEdge s.edges a b v E' → insertInInterface 2 s [a, b] v = some s' →
      (careful = true → key v c ∈ E') → Insert careful s (.cross a b c) { connect s' v c with edges := E', next := v + 1 }

/-- Processing of a removal request in `adapt_` (mmesh.hh:1323-1335). Finding the interface elements at `v` is assumed to be
defined; `NewFaces` shows when it is. -/
inductive Remove (s : State) (v : Nat) : State → Prop
  | bulk {E'} : s.flag v = false → RemoveVertex s.edges v E' → Remove s v { s with edges := E' }
  | keep {star s'} : s.flag v = true → Star s.edges v star → removeFromInterface s v star = (s', none) → Remove s v s'
  | join {star s' o o' E'} : s.flag v = true → Star s.edges v star → removeFromInterface s v star = (s', some (o, o')) →
      RemoveVertex s.edges v E' → key o o' ∈ E' → Remove s v { s' with edges := E' }

/-- All requests of a list, one after the other. (Models: mmesh.hh:1227, 1323.) -/
inductive Many {α : Type} (R : State → α → State → Prop) : State → List α → State → Prop
  | nil {s} : Many R s [] s
  | cons {s s1 s2 x l} : R s x s1 → Many R s1 l s2 → Many R s (x :: l) s2

/-- The grid together with the queues `insert_` and `remove_` (mmesh.hh:1805-1808). -/
structure Full where
  s : State
  insert : List Req
  remove : List Nat

/-- One call by the user. `careful = false` is the code; with `careful = true` a facet is not added to the interface
while
its refinement is pending. (Models: mmesh.hh:374-392, 806-822, 1226-1335.) -/
inductive Step (careful : Bool) : Full → Full → Prop
  /-- addInterface of a facet of the grid. -/
  | addInterface {f a b marker} : a ≠ b → key a b ∈ f.s.edges →
      (careful = true → ∀ x y, Req.edge x y false ∈ f.insert → ¬ [x, y].Perm [a, b]) →
      Step careful f { f with s := addInterface f.s [a, b] marker }
  /-- refineEdge (or a marked element) of an edge of the grid (mmesh.hh:776-780, 880-882). -/
  | refine {f a b} : a ≠ b → key a b ∈ f.s.edges →
      Step careful f { f with insert := f.insert ++ [.edge a b (isInterfaceBulk f.s [a, b])] }
  /-- insertVertexInCell -/
  | cell {f} : Step careful f { f with insert := f.insert ++ [.cell] }
  /-- addToInterface at an interface vertex. -/
  | extend {f v0} : f.s.flag v0 = true → v0 < f.s.next → Step careful f { f with insert := f.insert ++ [.extend v0] }
  /-- ensureInterfaceMovement finds a crossing. -/
  | cross {f a b c} : isInterfaceBulk f.s [a, b] = true → f.s.flag c = true → c < f.s.next → c ≠ a → c ≠ b →
      Step careful f { f with insert := f.insert ++ [.cross a b c] }
  /-- removeVertex -/
  | remove {f v} : Step careful f { f with remove := f.remove ++ [v] }
  /-- adapt followed by postAdapt, which clears the queues (mmesh.hh:1469-1472). -/
  | adapt {f s1 s2} : Many (Insert careful) f.s f.insert s1 → Many Remove s1 f.remove s2 → Step careful f ⟨s2, [], []⟩

/-- The grid made by the explicit factory from the edges of the mesh and the inserted interface segments: all vertices of
segments are flagged (grid/explicitgridfactory.hh:419-421). -/
def ofExplicit (edges : List (List Nat)) (segs : List (List Nat × Nat)) (next : Nat) : State :=
  ⟨segs, fun v => segs.any fun e => e.1.contains v, edges, next⟩

/-- The grid made by the implicit factory: nothing is flagged (grid/implicitgridfactory.hh:203-212, 258-263). -/
def ofImplicit (edges : List (List Nat)) (segs : List (List Nat × Nat)) (next : Nat) : State :=
  ⟨segs, fun _ => false, edges, next⟩

end Verif.InterfaceOps
