import Mathlib.Analysis.Real.Sqrt

/-!
# Distance to the interface in 2D (remeshing/distance.hh)

`double` is modelled by the real numbers.
-/

namespace Verif.Distance

/-- Points of the plane. (Models: `FieldVector`, dune-common.) -/
abbrev Point := ℝ × ℝ

/-- Scalar product of `FieldVector`s. (Models: `operator*`, dune-common.) -/
def dot (u v : Point) : ℝ := u.1 * v.1 + u.2 * v.2

/-- `two_norm`. (Models: dune-common.) -/
noncomputable def norm2 (u : Point) : ℝ := Real.sqrt (dot u u)

/-- `Plane(a, b)` and `signedDistance` (cgal/triangulationwrapper.hh:17-31). -/
noncomputable def signedDistance (a b x : Point) : ℝ :=
  let n : Point := (-(a.2 - b.2), a.1 - b.1)
  let n : Point := (n.1 / norm2 n, n.2 / norm2 n)
  dot n (x - a)

/-- `computeDistance` in 2D (distance.hh:143-156): position of the vertex, corners of the facet. -/
noncomputable def computeDistance (p a b : Point) : ℝ :=
  if dot (a - b) (p - a) ≥ 0 then norm2 (p - a)
  else if dot (b - a) (p - b) ≥ 0 then norm2 (p - b)
  else |signedDistance a b p|

/-- The value of vertices before any facet is handled (remeshing/distance.hh:45). -/
noncomputable def high : ℝ := 10 ^ 100

/-- `handleFacet` (remeshing/distance.hh:133-140): all interior vertices. Vertices are given by the flag "interior" and the position, in the
order of the index set; `ds` are the values. -/
noncomputable def handleFacet (vs : List (Bool × Point)) (ds : List ℝ) (s : Point × Point) : List ℝ :=
  List.zipWith (fun v d => if v.1 ∧ computeDistance v.2 s.1 s.2 < d then computeDistance v.2 s.1 s.2 else d) vs ds

/-- `update` (remeshing/distance.hh:42-59); `segs`: corners of the interior interface elements. -/
noncomputable def update (vs : List (Bool × Point)) (segs : List (Point × Point)) : List ℝ :=
  segs.foldl (handleFacet vs) (List.replicate vs.length high)

/-- Value of an element (remeshing/distance.hh:92-101), the average over its vertices. -/
noncomputable def elementDistance (ds : List ℝ) (i j k : Nat) : ℝ := (0 + ds.getD i 0 + ds.getD j 0 + ds.getD k 0) / 3

/-- `maximum` (remeshing/distance.hh:118-123). -/
noncomputable def maximum (ds : List ℝ) : ℝ := ds.foldl (fun (m : ℝ) d => max d m) 0

end Verif.Distance
