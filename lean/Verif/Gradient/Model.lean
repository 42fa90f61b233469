import Mathlib.LinearAlgebra.Matrix.NonsingularInverse

/-!
# The distance function of an element and its gradient (model)

dune/python/mmesh/distance.hh and the class `DistanceFunction` of dune/python/mmesh/utility.hh. `double` is modelled by a
field. The distances of the vertices are the subject of C43.
-/

namespace Verif.Gradient

variable {K : Type*} [Field K] {d : ℕ}

/-- Jacobian of the geometry with corners `p`. (Models: dune-geometry `jacobianTransposed`, used in
dune/python/mmesh/distance.hh:64-85.) -/
def jac (p : Fin (d + 1) → Fin d → K) : Matrix (Fin d) (Fin d) K := Matrix.of fun j k => p k.succ j - p 0 j

/-- `geometry().global` of an element (dune-geometry, affine). (Models: used in dune/python/mmesh/distance.hh:58-61.)
-/
def geoGlobal (p : Fin (d + 1) → Fin d → K) (l : Fin d → K) : Fin d → K := p 0 + (jac p).mulVec l

/-- `geometry().local` of an element (dune-geometry, affine). -/
noncomputable def geoLocal (p : Fin (d + 1) → Fin d → K) (x : Fin d → K) : Fin d → K := (jac p)⁻¹.mulVec (x - p 0)

/-- distance.hh:40-54, 57-61 (utility.hh:171-185, 188-192): `interpolation_.global`, the interpolation of the distances
`dist` of the corners at a local coordinate. -/
def evaluate (dist : Fin (d + 1) → K) (l : Fin d → K) : K := dist 0 + ∑ k, l k * (dist k.succ - dist 0)

/-- distance.hh:63-81 `Distance::jacobian`. -/
noncomputable def jacobian (p : Fin (d + 1) → Fin d → K) (dist : Fin (d + 1) → K) (i : Fin d) : K :=
  let dt0 := evaluate dist (geoLocal p 0)
  let dt := evaluate dist (geoLocal p (Pi.single i 1))
  dt - dt0

/-- utility.hh:194-199 `DistanceFunction::jacobian`: the transposed Jacobian of the interpolation. -/
def jacobianReference (dist : Fin (d + 1) → K) (i : Fin d) : K := dist i.succ - dist 0

end Verif.Gradient
