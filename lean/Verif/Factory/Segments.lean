import Verif.Util.Map
import Verif.RefElem.Lemmas

/-!
# Explicit grid factory (model): boundary and interface segments

The calls a user makes before `createGrid`, and the separation of segments in `createGrid`. In this factory the
id of a vertex is its insertion number (explicitgridfactory.hh:318), so vertex numbers are used for ids.
-/

namespace Verif.Segments

open Verif RefElem

/-- A sorted list of vertex ids. -/
abbrev Key := List Nat

/-- explicitgridfactory.hh:578-588. -/
structure State where
  numVertices : Nat := 0
  boundarySegments : List (Key × Nat) := []
  countBoundarySegments : Nat := 0
  interfaceSegments : List (Key × Nat) := []
  interfaceBoundarySegments : List (Key × Nat) := []
  countInterfaceBoundarySegments : Nat := 0

/-- A call of the factory. -/
inductive Call where
  | insertVertex
  | insertBoundarySegment (vertices : List Nat)
  | insertInterface (vertices : List Nat) (marker : Nat)
  | insertInterfaceBoundarySegment (vertices : List Nat)

/-- explicitgridfactory.hh:271-274 (and the same lines in the other functions): ids of the vertices, sorted. An
index beyond the inserted vertices is undefined behaviour (`none`). -/
def sortedIds (s : State) (vertices : List Nat) : Option Key :=
  if ∀ v ∈ vertices, v < s.numVertices then some (sortIds vertices) else none

/-- The outcome of a call. -/
inductive Outcome where
  | ok (s : State)
  | throws (s : State)
  | undefined

/-- explicitgridfactory.hh:267-342. -/
def step (s : State) : Call → Outcome
  | .insertVertex => .ok { s with numVertices := s.numVertices + 1 }
  | .insertBoundarySegment vs =>
    match sortedIds s vs with
    | none => .undefined
    | some key =>
      match Map.find s.boundarySegments key with
      | some _ => .throws s
      | none => .ok { s with boundarySegments := Map.insert s.boundarySegments key s.countBoundarySegments,
                             countBoundarySegments := s.countBoundarySegments + 1 }
  | .insertInterface vs marker =>
    match sortedIds s vs with
    | none => .undefined
    | some key => .ok { s with interfaceSegments := Map.insert s.interfaceSegments key marker }
  | .insertInterfaceBoundarySegment vs =>
    match sortedIds s vs with
    | none => .undefined
    | some key =>
      -- the code looks into boundarySegments_ here (line 299)
      match Map.find s.boundarySegments key with
      | some _ => .throws s
      | none => .ok { s with
          interfaceBoundarySegments := Map.insert s.interfaceBoundarySegments key s.countInterfaceBoundarySegments,
          countInterfaceBoundarySegments := s.countInterfaceBoundarySegments + 1 }

/-- The state after a call; the caller may catch the exception and go on. -/
def Outcome.state : Outcome → Option State
  | .ok s => some s
  | .throws s => some s
  | .undefined => none

/-- A history of calls. -/
def run (s : State) : List Call → Option State
  | [] => some s
  | c :: cs => (step s c).state.bind fun s' => run s' cs

/-- explicitgridfactory.hh:469-470, 527-528: for every boundary facet (entry of `neighborMap`, here its sorted
ids) which is a boundary segment, erase it from the interface segments. -/
def removeBoundaryFromInterface (s : State) (boundaryFacets : List Key) : List (Key × Nat) :=
  boundaryFacets.foldl (fun ifc f =>
    match Map.find s.boundarySegments f with
    | some _ => Map.erase ifc f
    | none => ifc) s.interfaceSegments

/-- What `createGrid` hands over to the grid. -/
structure Grid where
  boundarySegments : List (Key × Nat)
  interfaceSegments : List (Key × Nat)
  interfaceBoundarySegments : List (Key × Nat)
  isInterface : Nat → Bool

/-- explicitgridfactory.hh:389-431 `createGrid`, the part about segments: 412 (via `createInfiniteCells`),
415-416, 419-421. -/
def createGrid (s : State) (boundaryFacets : List Key) : Grid :=
  let ifc := removeBoundaryFromInterface s boundaryFacets
  { boundarySegments := ifc.foldl (fun b seg => Map.erase b seg.1) s.boundarySegments
    interfaceSegments := ifc
    interfaceBoundarySegments := s.interfaceBoundarySegments
    isInterface := fun v => ifc.any fun seg => seg.1.contains v }

/-- grid/intersections.hh:110-124 `boundarySegmentIndex` (serial run): the entry of the map, 0 if there is none. -/
def boundarySegmentIndex (g : Grid) (vertices : List Nat) : Nat :=
  match Map.find g.boundarySegments (sortIds vertices) with
  | some i => i
  | none => 0

/-- grid/mmesh.hh:355 `numBoundarySegments`. -/
def numBoundarySegments (g : Grid) : Nat := g.boundarySegments.length

end Verif.Segments
