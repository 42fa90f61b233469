import Mathlib.Analysis.Real.Sqrt

/-!
# The default remeshing indicator (remeshing/ratioindicator.hh)

`double` is modelled by the real numbers; divisions are by positive numbers in the theorems.
-/

namespace Verif.Indicator

/-- Points of the plane. (Models: `FieldVector`, dune-common.) -/
abbrev Point := ℝ × ℝ

/-- The mutable members of the indicator (remeshing/ratioindicator.hh:191-199); `edgeRatio_ = 4`, `K_ = 2`, `radiusRatio_ = 30` are constants. -/
structure Ind where
  minH : ℝ
  maxH : ℝ
  distProportion : ℝ
  factor : ℝ
  /-- set by `update` only -/
  maxDist : ℝ

/-- `edgeRatio_` (remeshing/ratioindicator.hh:45). -/
noncomputable def edgeRatio : ℝ := 4
/-- `K_` (remeshing/ratioindicator.hh:46). -/
noncomputable def bigK : ℝ := 2
/-- `k_` (remeshing/ratioindicator.hh:49). -/
noncomputable def smallK : ℝ := bigK / (2 * edgeRatio)
/-- `radiusRatio_` (remeshing/ratioindicator.hh:53). -/
noncomputable def radiusRatio : ℝ := 30

/-- Constructor (remeshing/ratioindicator.hh:44-58); `maxDist_` is indeterminate. -/
noncomputable def construct (h distProportion factor indeterminate : ℝ) : Ind :=
  ⟨smallK * h, bigK * h, distProportion, factor, indeterminate⟩

/-- The loops of `init` that determine the largest and the smallest length of an edge (remeshing/ratioindicator.hh:66-70, 77-81). -/
noncomputable def range (lens : List ℝ) : ℝ × ℝ :=
  lens.foldl (fun (m : ℝ × ℝ) h => (max m.1 h, min m.2 h)) (0, 10 ^ 100)

/-- `init` (remeshing/ratioindicator.hh:62-91); `ilens`: lengths of the edges of the interface, `lens`: lengths of the edges of the grid,
`noInterface`: the interface grid has no entities of codimension 1. -/
noncomputable def init (ind : Ind) (ilens lens : List ℝ) (noInterface : Bool) : Ind :=
  let i := range ilens
  let b := range lens
  let maxH := if noInterface then bigK * b.1 else bigK * i.1
  let minH := if noInterface then smallK * b.2 else smallK * i.2
  { ind with maxH := maxH, minH := minH, factor := b.1 / b.2 }

/-- `update` (remeshing/ratioindicator.hh:94-97) with `maximum`, the largest distance of a vertex. -/
noncomputable def update (ind : Ind) (maximum : ℝ) : Ind := { ind with maxDist := ind.distProportion * maximum }

/-- The permitted range of edge lengths at a distance to the interface (remeshing/ratioindicator.hh:118-121). -/
noncomputable def limits (ind : Ind) (distance : ℝ) : ℝ × ℝ :=
  let dist := min ind.maxDist distance
  let l := dist / ind.maxDist
  ((1 - l) * ind.minH + l * ind.factor * ind.minH, (1 - l) * ind.maxH + l * ind.factor * ind.maxH)

/-- Local variables of the loop over the edges (remeshing/ratioindicator.hh:110-115). -/
structure Acc where
  refine : Nat
  coarse : Nat
  minE : ℝ
  maxE : ℝ
  sumE : ℝ

/-- Loop body (remeshing/ratioindicator.hh:125-134). -/
noncomputable def edgeBody (lim : ℝ × ℝ) (s : Acc) (len : ℝ) : Acc :=
  { coarse := if len < lim.1 then s.coarse + 1 else s.coarse
    refine := if len > lim.2 then s.refine + 1 else s.refine
    minE := min s.minE len
    maxE := max s.maxE len
    sumE := s.sumE + len }

/-- Decision (remeshing/ratioindicator.hh:107-160) for an element with edges of lengths `lens`, volume `vol` and distance `outer` of the circumcenter
to corner 0; `dim` is the dimension of the world. -/
noncomputable def indicate (dim : Nat) (ind : Ind) (distance : ℝ) (lens : List ℝ) (vol outer : ℝ) : Int :=
  let s := lens.foldl (edgeBody (limits ind distance)) ⟨0, 0, 10 ^ 100, -(10 ^ 100), 0⟩
  let coarse := if s.maxE / s.minE > edgeRatio then s.coarse + 1 else s.coarse
  let innerRadius := dim * vol / s.sumE
  let coarse := if outer / (innerRadius * dim) > radiusRatio then coarse + 1 else coarse
  if coarse > 0 ∧ dim ≠ 3 then -1
  else if s.refine > 0 then 1
  else 0

/-- Length of an edge with the given corners. (Models: `edge.geometry().volume()`, remeshing/ratioindicator.hh:125.) -/
noncomputable def edgeLength (p q : Point) : ℝ := Real.sqrt ((p.1 - q.1) ^ 2 + (p.2 - q.2) ^ 2)

/-- Volume of a triangle. (Models: `geo.volume()`, remeshing/ratioindicator.hh:143.) -/
noncomputable def triangleVolume (p q r : Point) : ℝ := |(q.1 - p.1) * (r.2 - p.2) - (r.1 - p.1) * (q.2 - p.2)| / 2

/-- Circumcenter of a triangle (grid/pointfieldvector.hh:89-94, computed by CGAL: the formula is the one of CGAL's
kernel). -/
noncomputable def circumcenter (p q r : Point) : Point :=
  let d := 2 * ((q.1 - p.1) * (r.2 - p.2) - (r.1 - p.1) * (q.2 - p.2))
  let b := (q.1 - p.1) ^ 2 + (q.2 - p.2) ^ 2
  let c := (r.1 - p.1) ^ 2 + (r.2 - p.2) ^ 2
  (p.1 + ((r.2 - p.2) * b - (q.2 - p.2) * c) / d, p.2 - ((r.1 - p.1) * b - (q.1 - p.1) * c) / d)

/-- The indicator for a triangle of the 2D grid; edges in the order of the reference element (remeshing/ratioindicator.hh:107-160). -/
noncomputable def indicateTriangle (ind : Ind) (distance : ℝ) (p q r : Point) : Int :=
  indicate 2 ind distance [edgeLength p q, edgeLength p r, edgeLength q r] (triangleVolume p q r) (edgeLength (circumcenter p q r) p)

/-- The indicator for an element of the interface of a 2D grid: its only edge is itself, its circumcenter is its midpoint
(pointfieldvector.hh:96), the distance is zero (distance.hh:104). -/
noncomputable def indicateSegment (ind : Ind) (p q : Point) : Int :=
  indicate 2 ind 0 [edgeLength p q] (edgeLength p q) (edgeLength ((p.1 + q.1) / 2, (p.2 + q.2) / 2) p)

end Verif.Indicator
