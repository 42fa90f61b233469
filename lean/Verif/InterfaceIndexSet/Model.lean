import Verif.Util.Map
import Verif.Util.Iterate
import Verif.RefElem.Model

/-!
# Index set, intersections and boundary segments of the interface grid (model)

An interface element is represented by the list of the ids of its vertices in slot order,
`vertex((second + i + 1) % (dim + 1))`: two ids in a 2D bulk grid, three in 3D. `InterfaceIter` models which elements
the iteration visits.
-/

namespace Verif.InterfaceIndexSet

open Verif RefElem

/-- interface/indexsets.hh:345-350: `vertexIndices_`, `indexMap_` (sorted vertex indices of a facet of an element to a
map from the index of the remaining vertex to the index of the element), `edgeIndexMap_`, and the counters. -/
structure State where
  vert : List (Nat × Nat) := []
  vertexCount : Nat := 0
  index : List (List Nat × List (Nat × Nat)) := []
  elementCount : Nat := 0
  edge : List (List Nat × Nat) := []
  edgeCount : Nat := 0

/-- interface/indexsets.hh:280-284 `addVertexIndex`. -/
def addVertexIndex (s : State) (id : Nat) : State :=
  match Map.find s.vert id with
  | none => { s with vert := Map.insert s.vert id s.vertexCount, vertexCount := s.vertexCount + 1 }
  | some _ => s

/-- `indexMap_[k].insert({x, c})` (interface/indexsets.hh:265-266, 318-320). -/
def insertAt (m : List (List Nat × List (Nat × Nat))) (k : List Nat) (x c : Nat) :
    List (List Nat × List (Nat × Nat)) :=
  match Map.find m k with
  | some l => Map.set m k (Map.insert l x c)
  | none => Map.set m k (Map.insert [] x c)

/-- interface/indexsets.hh:249-271: one pass of the loop of `update` in 2D; `none` if `at` throws. -/
def step2 (s : State) (e : List Nat) : Option State :=
  match e with
  | [idx0, idx1] => do
    let s := addVertexIndex s idx0
    let s := addVertexIndex s idx1
    let id0 ← Map.find s.vert idx0
    let id1 ← Map.find s.vert idx1
    let m := insertAt s.index [id0] id1 s.elementCount
    let m := insertAt m [id1] id0 s.elementCount
    pure { s with index := m, elementCount := s.elementCount + 1 }
  | _ => none

/-- interface/indexsets.hh:322-330: one pass of the edge loop in 3D. -/
def addEdge (s : State) (a b : Nat) : State :=
  let k := sortIds [a, b]
  match Map.find s.edge k with
  | none => { s with edge := Map.insert s.edge k s.edgeCount, edgeCount := s.edgeCount + 1 }
  | some _ => s

/-- interface/indexsets.hh:302-331: one pass of the loop of `update` in 3D. -/
def step3 (s : State) (e : List Nat) : Option State :=
  match e with
  | [idx0, idx1, idx2] => do
    let s := addVertexIndex s idx0
    let i0 ← Map.find s.vert idx0
    let s := addVertexIndex s idx1
    let i1 ← Map.find s.vert idx1
    let s := addVertexIndex s idx2
    let i2 ← Map.find s.vert idx2
    match sortIds [i0, i1, i2] with
    | [a, b, c] =>
      let m := insertAt s.index [a, b] c s.elementCount
      let m := insertAt m [b, c] a s.elementCount
      let m := insertAt m [a, c] b s.elementCount
      let s := { s with index := m, elementCount := s.elementCount + 1 }
      let s := addEdge s a b
      let s := addEdge s b c
      let s := addEdge s c a
      pure s
    | _ => none
  | _ => none

/-- One pass of the loop for bulk dimension `d`. (Models: interface/indexsets.hh:250-285, 301-340.) -/
def step (d : Nat) : State → List Nat → Option State := if d = 2 then step2 else step3

/-- interface/indexsets.hh:240-277, 289-338 `update`: the maps are cleared, then all elements are visited. The cached
sizes are the counters of the result. -/
def update (d : Nat) (els : List (List Nat)) : Option State := els.foldlM (step d) {}

/-- interface/indexsets.hh:128-141 `index` of a vertex. -/
def indexVertex (s : State) (v : Nat) : Option Nat := Map.find s.vert v

/-- interface/indexsets.hh:54-98 `index` of an element (without the case of the placeholder entity, lines 60-75). -/
def indexElement (s : State) (e : List Nat) : Option Nat := do
  let ids ← e.mapM (Map.find s.vert)
  let ids := sortIds ids
  let x ← ids.getLast?
  let l ← Map.find s.index ids.dropLast
  Map.find l x

/-- interface/indexsets.hh:100-126 `index` of an edge in 3D. -/
def indexEdge (s : State) (u v : Nat) : Option Nat := do
  let i ← Map.find s.vert u
  let j ← Map.find s.vert v
  Map.find s.edge (sortIds [i, j])

/-! ### Intersections -/

/-- interface/intersections.hh:78-93 and interface/intersectioniterator.hh:57-68: the ids of the vertices of facet `i`
of an element. `computeCGALIndices` (interface/common.hh:16-38) sorts the vertices of the element by id. -/
def facetIds (d : Nat) (e : List Nat) (i : Nat) : Option (List Nat) :=
  let s := sortIds e
  if d = 2 then do
    let a ← s[i]?
    pure [a]
  else do
    let a ← s[if i = 2 then 1 else 0]?
    let b ← s[if i = 0 then 1 else 2]?
    pure [a, b]

/-- interface/intersections.hh:94-100: `localIndexMap_ = indexMap().at(sorted ids)`. -/
def localIndexMap (d : Nat) (s : State) (e : List Nat) (i : Nat) : Option (List (Nat × Nat)) := do
  let f ← facetIds d e i
  let ids ← f.mapM (Map.find s.vert)
  Map.find s.index (sortIds ids)

/-- interface/intersections.hh:195 `boundary`. -/
def boundary (l : List (Nat × Nat)) : Bool := l.length == 1

/-- interface/intersections.hh:138-143: the loop moves the iterator on and does not count the entry of the element
itself; `none` if the iterator reaches the end (dereferencing it is undefined). -/
def walk (me : Nat) : Nat → List (Nat × Nat) → Option (Nat × Nat)
  | _, [] => none
  | 0, e :: _ => some e
  | n + 1, _ :: rest =>
    match rest with
    | [] => none
    | e :: _ => if e.1 = me then walk me (n + 1) rest else walk me n rest

/-- interface/intersections.hh:132-143: the entry of the local index map for neighbour number `nb`; `entries` are the
entries in the iteration order of the `unordered_map`. -/
def pick (me nb : Nat) (entries : List (Nat × Nat)) : Option (Nat × Nat) :=
  walk me nb (entries.dropWhile fun e => e.1 == me)

/-- interface/intersections.hh:165-190: the search in the facets incident to a vertex: the first one whose vertices are
all in the vertex index map and have the wanted indices. -/
def search (s : State) (vIdx : List Nat) (incident : List (List Nat)) : Option (List Nat) :=
  incident.find? fun f =>
    match f.mapM (Map.find s.vert) with
    | some l => decide (sortIds l = vIdx)
    | none => false

/-- interface/intersections.hh:126-192 `outside`: `order` is the iteration order of the `unordered_map`, `incident v`
are the facets of the bulk grid containing vertex `v` in the order of `incidentFacets`. `none` if something throws or is
undefined. -/
def outside (d : Nat) (s : State) (order : List (Nat × Nat) → List (Nat × Nat)) (incident : Nat → List (List Nat))
    (e : List Nat) (i nb : Nat) : Option (List Nat) := do
  let l ← localIndexMap d s e i
  let last ← (sortIds e)[d - 1 - i]?
  let me ← Map.find s.vert last
  let x ← pick me nb (order l)
  let v0 ← (sortIds e)[if d = 3 ∧ i = 1 then 0 else i]?
  let i0 ← Map.find s.vert v0
  if d = 2 then
    search s (sortIds [i0, x.1]) (incident v0)
  else do
    let v1 ← (sortIds e)[if i = 1 then 2 else 1]?
    let i1 ← Map.find s.vert v1
    search s (sortIds [i0, x.1, i1]) (incident v0)

/-- `int` converted to `size_t` in the comparison `nbIdx_ < maxNbIdx_[i_]`. (Models:
interface/intersectioniterator.hh:94.) -/
def toSize (x : Int) : Nat := if x < 0 then (2 ^ 64 + x).toNat else x.toNat

/-- interface/intersectioniterator.hh:93-101 `increment` (without the ghost skipping of line 101). -/
def next (maxNb : Nat → Int) (p : Nat × Nat) : Nat × Nat :=
  if maxNb p.1 ≠ -1 ∧ p.2 < toSize (maxNb p.1) then (p.1, p.2 + 1) else (p.1 + 1, 0)

/-- `for (it = p; it != end; ++it)`: `Loop maxNb stop p l` says that the loop starting at `p` ends and visits `l`.
(Models: interface/intersectioniterator.hh:86-103.) -/
inductive Loop (maxNb : Nat → Int) (stop : Nat × Nat) : Nat × Nat → List (Nat × Nat) → Prop
  | done : Loop maxNb stop stop []
  | step (p l) : p ≠ stop → Loop maxNb stop (next maxNb p) l → Loop maxNb stop p (p :: l)

/-- interface/intersectioniterator.hh:56-75: `maxNbIdx_[i]`; 0 if `at` throws (excluded in the theorems). -/
def maxNb (d : Nat) (s : State) (e : List Nat) (i : Nat) : Int :=
  match localIndexMap d s e i with
  | some l => (l.length : Int) - 2
  | none => 0

/-- interface/intersectioniterator.hh:54-118: the intersections `(i_, nbIdx_)` visited from `begin` to `end`; `Loop`
gives the positions, for a ghost element those are skipped that are on the boundary or have a ghost outside. -/
def Intersections (d : Nat) (s : State) (order : List (Nat × Nat) → List (Nat × Nat))
    (incident : Nat → List (List Nat)) (ghost : List Nat → Bool) (e : List Nat) (l : List (Nat × Nat)) : Prop :=
  ∃ l', Loop (maxNb d s e) (d, 0) (0, 0) l' ∧
    l = Iterate.rangeFor (fun p => !(ghost e && (decide (maxNb d s e p.1 = -1) ||
      match outside d s order incident e p.1 p.2 with
      | some o => ghost o
      | none => true))) l'

/-! ### Boundary segments -/

/-- interface/grid.hh:640-647: the numbering of the boundary intersections: the key is the id of
`getHostIntersection()`, which is the host facet of the element (interface/intersections.hh:347-349). `bnd` lists the
elements of the boundary intersections in the order of the two loops. -/
def numberSegments (bnd : List (List Nat)) : List (List Nat × Nat) × Nat :=
  bnd.foldl (fun st e => (Map.insert st.1 (sortIds e) st.2, st.2 + 1)) ([], 0)

/-- interface/intersections.hh:195: facet `i` of `e` is on the boundary of the interface. -/
def isBoundary (d : Nat) (s : State) (e : List Nat) (i : Nat) : Bool :=
  match localIndexMap d s e i with
  | some l => boundary l
  | none => false

/-- The elements of the boundary intersections in loop order. (Models: interface/intersections.hh:210-230.) -/
def boundaryElements (d : Nat) (s : State) (els : List (List Nat)) : List (List Nat) :=
  els.flatMap fun e => (List.range d).filterMap fun i => if isBoundary d s e i then some e else none

/-- interface/intersections.hh:210-216 `boundarySegmentIndex` of a boundary intersection of element `e`. -/
def boundarySegmentIndex (segs : List (List Nat × Nat)) (e : List Nat) : Nat :=
  match Map.find segs (sortIds e) with
  | some i => i
  | none => 0

/-- interface/grid.hh:188 `numBoundarySegments`. -/
def numBoundarySegments (segs : List (List Nat × Nat)) : Nat := segs.length

end Verif.InterfaceIndexSet
