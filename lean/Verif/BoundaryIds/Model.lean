import Verif.Factory.Segments

/-!
# Boundary ids (model)

The DGF reader, `addBoundaryId` of the factory, and the queries `boundarySegmentIndex` and `boundaryId` of an intersection. Uses the model of
the segments of the explicit factory (`Verif.Segments`).
-/

namespace Verif.BoundaryIds

open Verif RefElem Segments

/-- The factory together with its map `boundaryIds_` (explicitgridfactory.hh:581). -/
structure Factory where
  segs : State := {}
  boundaryIds : List (Nat × Nat) := []

/-- explicitgridfactory.hh:377-379 `addBoundaryId`. -/
def addBoundaryId (f : Factory) (boundarySegmentIndex boundaryId : Nat) : Factory :=
  { f with boundaryIds := Map.insert f.boundaryIds boundarySegmentIndex boundaryId }

/-- grid/dgfparser.hh:115-131, the body of the loop over `facemap`: vertices of the face and boundary id. `none` if an exception is
thrown or the behaviour is undefined. -/
def dgfFace (f : Factory) (face : List Nat × Nat) : Option Factory :=
  match step f.segs (.insertBoundarySegment (sortIds face.1)) with
  | .ok s => some (addBoundaryId { f with segs := s } (s.boundarySegments.length - 1) face.2)
  | _ => none

/-- grid/dgfparser.hh:101-131: `n` vertices, then the faces. The elements are not needed here. -/
def dgfFaces (f : Factory) : List (List Nat × Nat) → Option Factory
  | [] => some f
  | face :: faces => (dgfFace f face).bind fun f' => dgfFaces f' faces

/-- The vertices inserted first (grid/dgfparser.hh:101-105). -/
def dgfVertices (n : Nat) : Factory := { segs := { numVertices := n } }

/-- The maps of the grid that the queries use: `localBoundarySegments_` and `boundaryIds_` (mmesh.hh:1812-1813). -/
structure Grid where
  localBoundarySegments : List (Key × Nat)
  boundaryIds : List (Nat × Nat)

/-- mmesh.hh:324-325 with one process: `localBoundarySegments_ = boundarySegments_`. `boundaryFacets` are the sorted ids of the facets on the
boundary, in the order of the loop in `createInfiniteCells`. -/
def serialGrid (f : Factory) (boundaryFacets : List Key) : Grid :=
  { localBoundarySegments := (createGrid f.segs boundaryFacets).boundarySegments, boundaryIds := f.boundaryIds }

/-- mmesh.hh:326-336 with several processes: the boundary facets of the elements of this process, in the order of iteration, are
numbered; a facet in two elements of the list (there is none) would be inserted once but counted twice. -/
def numberLocal (facets : List Key) : List (Key × Nat) :=
  (facets.zipIdx).foldl (fun m f => Map.insert m f.1 f.2) []

/-- The grid of one of several processes; `facets` are the ids of its boundary facets in the order of iteration.
(Models: mmesh.hh:326-336.) -/
def parallelGrid (f : Factory) (facets : List Key) : Grid :=
  { localBoundarySegments := numberLocal facets, boundaryIds := f.boundaryIds }

/-- grid/intersections.hh:110-124 `boundarySegmentIndex` of the intersection with the given vertices. -/
def boundarySegmentIndex (g : Grid) (vertices : List Nat) : Nat :=
  match Map.find g.localBoundarySegments (sortIds vertices) with
  | none => 0
  | some i => i

/-- grid/intersections.hh:127-132 `boundaryId`. -/
def boundaryId (g : Grid) (vertices : List Nat) : Nat :=
  match Map.find g.boundaryIds (boundarySegmentIndex g vertices) with
  | none => 0
  | some i => i

end Verif.BoundaryIds
