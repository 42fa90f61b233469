import Verif.Gradient.Model
import Mathlib.LinearAlgebra.Matrix.Notation
import Mathlib.Data.Fin.VecNotation
import Mathlib.Algebra.Order.Ring.Rat
import Mathlib.Tactic.FinCases
import Mathlib.Tactic.NormNum
import Mathlib.Tactic.Ring

/-!
# C75: value and gradient of the distance function
-/

namespace Verif.Gradient

variable {K : Type*} [Field K] {d : ℕ}

/-- The element is not degenerate. -/
def Regular (p : Fin (d + 1) → Fin d → K) : Prop := (jac p).det ≠ 0

/-- `v` is the gradient on the element: the values at any two points `x`, `y` of the element (given in the global
coordinates) differ by `v · (x - y)`. -/
def IsGradient (p : Fin (d + 1) → Fin d → K) (dist : Fin (d + 1) → K) (v : Fin d → K) : Prop :=
  ∀ l m : Fin d → K, evaluate dist l - evaluate dist m = ∑ i, v i * (geoGlobal p l i - geoGlobal p m i)

theorem evaluate_dot (dist : Fin (d + 1) → K) (l : Fin d → K) :
    evaluate dist l = dist 0 + (fun k : Fin d => dist k.succ - dist 0) ⬝ᵥ l := by
  unfold evaluate dotProduct
  congr 1
  exact Finset.sum_congr rfl fun k _ => mul_comm _ _

theorem jacobian_eq (p : Fin (d + 1) → Fin d → K) (dist : Fin (d + 1) → K) (i : Fin d) :
    jacobian p dist i = Matrix.vecMul (fun k : Fin d => dist k.succ - dist 0) (jac p)⁻¹ i := by
  unfold jacobian
  simp only [evaluate_dot, geoLocal]
  rw [add_sub_add_left_eq_sub, ← dotProduct_sub, ← Matrix.mulVec_sub, sub_sub_sub_cancel_right, sub_zero,
    Matrix.dotProduct_mulVec, dotProduct_single, mul_one]

/-- **C75** The values at the vertices are their distances, and in between the function is affine. -/
theorem C75_values (dist : Fin (d + 1) → K) :
    evaluate dist 0 = dist 0 ∧ (∀ k : Fin d, evaluate dist (Pi.single k 1) = dist k.succ) ∧
    ∀ (l m : Fin d → K) (a : K), evaluate dist (a • l + (1 - a) • m) = a * evaluate dist l + (1 - a) * evaluate dist m := by
  refine ⟨by simp [evaluate], fun k => ?_, fun l m a => ?_⟩
  · rw [evaluate_dot, dotProduct_single]; ring
  · simp only [evaluate_dot, dotProduct_add, dotProduct_smul, smul_eq_mul]
    ring

/-- **C75** The gradient of the distance function of `distance(grid)` is its gradient, on every element that is not
degenerate. -/
theorem C75_gradient (p : Fin (d + 1) → Fin d → K) (hp : Regular p) (dist : Fin (d + 1) → K) :
    IsGradient p dist (jacobian p dist) := by
  intro l m
  have h : ∀ l : Fin d → K, (fun k : Fin d => dist k.succ - dist 0) ⬝ᵥ l
      = Matrix.vecMul (fun k : Fin d => dist k.succ - dist 0) (jac p)⁻¹ ⬝ᵥ (jac p).mulVec l := by
    intro l
    rw [← Matrix.dotProduct_mulVec, Matrix.mulVec_mulVec, Matrix.nonsing_inv_mul _ (IsUnit.mk0 _ hp), Matrix.one_mulVec]
  rw [evaluate_dot, evaluate_dot, add_sub_add_left_eq_sub, h l, h m, ← dotProduct_sub]
  unfold dotProduct geoGlobal
  refine Finset.sum_congr rfl fun i _ => ?_
  rw [jacobian_eq]
  simp

/-- The triangle (0,0), (2,0), (0,2). -/
def exTriangle : Fin 3 → Fin 2 → ℚ := ![![0, 0], ![2, 0], ![0, 2]]

/-- Non-vacuity of C75. -/
theorem exTriangle_regular : Regular exTriangle := by
  unfold Regular jac exTriangle
  rw [Matrix.det_fin_two]
  simp

/-- **C75** (part) The gradient of `DistanceFunction` is right on elements that are translations of the reference element. -/
theorem C75_reference_partial (p : Fin (d + 1) → Fin d → K) (hp : jac p = 1) (dist : Fin (d + 1) → K) :
    IsGradient p dist (jacobianReference dist) := by
  have h : Regular p := by unfold Regular; rw [hp]; simp
  have e : jacobian p dist = jacobianReference dist := by
    funext i
    rw [jacobian_eq, hp]
    simp [jacobianReference]
  exact e ▸ C75_gradient p h dist

/-- Non-vacuity: the reference triangle. -/
example : jac (![![0, 0], ![1, 0], ![0, 1]] : Fin 3 → Fin 2 → ℚ) = 1 := by
  funext i j
  fin_cases i <;> fin_cases j <;> simp [jac]

/-- **C75** is false for `DistanceFunction`: on the triangle with edge length 2 and the distances 0, 2, 0 (the first
coordinate) it returns 2 in place of 1. -/
theorem C75_reference_false : Regular exTriangle ∧ ¬ IsGradient exTriangle ![0, 2, 0] (jacobianReference ![0, 2, 0]) := by
  refine ⟨exTriangle_regular, fun h => ?_⟩
  have := h ![1, 0] ![0, 0]
  have e1 : evaluate (![0, 2, 0] : Fin 3 → ℚ) ![1, 0] = 2 := by simp [evaluate, Fin.sum_univ_two]
  have e2 : evaluate (![0, 2, 0] : Fin 3 → ℚ) ![0, 0] = 0 := by simp [evaluate, Fin.sum_univ_two]
  have g1 : geoGlobal exTriangle ![1, 0] = ![2, 0] := by
    funext i; fin_cases i <;> simp [geoGlobal, jac, exTriangle, Matrix.mulVec, dotProduct, Fin.sum_univ_two]
  have g2 : geoGlobal exTriangle ![0, 0] = ![0, 0] := by
    funext i; fin_cases i <;> simp [geoGlobal, jac, exTriangle, Matrix.mulVec, dotProduct, Fin.sum_univ_two]
  rw [e1, e2, g1, g2, Fin.sum_univ_two] at this
  have j0 : jacobianReference (![0, 2, 0] : Fin 3 → ℚ) 0 = 2 := by simp [jacobianReference]
  rw [j0] at this
  norm_num at this

end Verif.Gradient
