import Mathlib.LinearAlgebra.Matrix.NonsingularInverse
import Mathlib.Analysis.Real.Sqrt

/-!
# The curvature operator (interface/curvatureoperator.hh)

`double` is modelled by the real numbers; `d` is the dimension of the world, `n` the number of points.
-/

namespace Verif.Curvature

open Matrix

variable {d n : ℕ}

/-- `epsilon` (interface/curvatureoperator.hh:179). -/
noncomputable def epsilon : ℝ := 1 / 2 ^ 52

/-- Matrix `A` (interface/curvatureoperator.hh:143-149). -/
def matA (p : Fin n → Fin d → ℝ) : Matrix (Fin n) (Fin (d + 1)) ℝ := fun i => Fin.cons 1 (p i)

/-- Vector `b` (interface/curvatureoperator.hh:144). -/
def vecB (p : Fin n → Fin d → ℝ) : Fin n → ℝ := fun i => -∑ j, p i j ^ 2

/-- `A.mtv(b, ATb)` (interface/curvatureoperator.hh:152). -/
def atb (p : Fin n → Fin d → ℝ) : Fin (d + 1) → ℝ := fun j => ∑ k, matA p k j * vecB p k

/-- `ATA` (interface/curvatureoperator.hh:154-157). -/
def ata (p : Fin n → Fin d → ℝ) : Matrix (Fin (d + 1)) (Fin (d + 1)) ℝ := fun i j => ∑ k, matA p k i * matA p k j

/-- Result of `ATA.solve(x, ATb)` (interface/curvatureoperator.hh:160) for a regular matrix. -/
noncomputable def solution (p : Fin n → Fin d → ℝ) : Fin (d + 1) → ℝ := (ata p)⁻¹ *ᵥ atb p

/-- `getRadius` (interface/curvatureoperator.hh:128-173): the radius (`none` is infinity) and the new value of `center`. -/
noncomputable def getRadius (p : Fin n → Fin d → ℝ) (center : Fin d → ℝ) : Option ℝ × (Fin d → ℝ) :=
  open Classical in
  if |(ata p).det| > epsilon then
    let x := solution p
    (some (Real.sqrt |1 / 4 * ∑ j : Fin d, x j.succ ^ 2 - x 0|), fun j => -(1 / 2) * x j.succ)
  else (none, center)

/-- `1.0 / getRadius(...)` (interface/curvatureoperator.hh:82, 110); the inverse of infinity is zero. -/
noncomputable def curvature (r : Option ℝ) : ℝ := match r with | some r => 1 / r | none => 0

/-- The points of a vertex: its position and the ones of the incident interface vertices (interface/curvatureoperator.hh:72-78). -/
structure Pts (d : ℕ) where
  n : ℕ
  p : Fin n → Fin d → ℝ

/-- The loop over the vertices (interface/curvatureoperator.hh:70-84): curvatures and centers in the order of the iteration; `center` is the variable
declared before the loop. -/
noncomputable def vertexLoop : List (Pts d) → (Fin d → ℝ) → List (ℝ × (Fin d → ℝ))
  | [], _ => []
  | v :: vs, center =>
    let g := getRadius v.p center
    (curvature g.1, g.2) :: vertexLoop vs g.2

/-- The inner loop over the corners of a neighbour (interface/curvatureoperator.hh:101-107): a corner that is not in the vector yet is appended. -/
noncomputable def addCorners (pts : List (Fin d → ℝ)) (corners : List (Fin d → ℝ)) : List (Fin d → ℝ) :=
  open Classical in corners.foldl (fun l p => if p ∈ l then l else l ++ [p]) pts

/-- The loop over the intersections of an element (interface/curvatureoperator.hh:98-108): `nbs` are the corners of the outside elements, `none` for an
intersection on the boundary of the interface, for which `outside()` increments an iterator beyond the end
(interface/intersections.hh:126-144); then the behaviour is undefined. -/
noncomputable def elementPoints : List (Option (List (Fin d → ℝ))) → List (Fin d → ℝ) → Option (List (Fin d → ℝ))
  | [], pts => some pts
  | none :: _, _ => none
  | some c :: nbs, pts => elementPoints nbs (addCorners pts c)

/-- The loop over the elements (interface/curvatureoperator.hh:94-114); `none` if the behaviour is undefined for some element. -/
noncomputable def elementLoop : List (List (Option (List (Fin d → ℝ)))) → (Fin d → ℝ) → Option (List (ℝ × (Fin d → ℝ)))
  | [], _ => some []
  | e :: es, center => do
    let pts ← elementPoints e []
    let g := getRadius pts.get center
    let rest ← elementLoop es g.2
    pure ((curvature g.1, g.2) :: rest)

end Verif.Curvature
