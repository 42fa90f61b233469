import Verif.Solve.Model
import Mathlib.Tactic.Linarith
import Mathlib.Tactic.FieldSimp
import Mathlib.Tactic.NormNum

/-!
# C52, C67, C68: the coupled solvers
-/

namespace Verif.Solve

variable {n m : ℕ} {σ : Type}

/-! ## Specification -/

/-- The states after 0, 1, 2, … passes. -/
noncomputable def states (S : Schemes n m σ) (accelerate : Bool) (w : World n m σ) : ℕ → World n m σ
  | 0 => S.callback w
  | k + 1 => pass S accelerate (states S accelerate w k)

/-- The distance of the targets in two states in the two norm. -/
noncomputable def distance (w w' : World n m σ) : ℝ :=
  Real.sqrt (∑ i, (w'.u i - w.u i) ^ 2 + ∑ i, (w'.v i - w.v i) ^ 2)

/-! ## C52 -/

theorem loop_spec (S : Schemes n m σ) (acc : Bool) (tol : ℝ) (w : World n m σ) : ∀ (k i : ℕ), 0 < k →
    ∃ p, i < p ∧ p ≤ i + k ∧ (loop S acc tol k i (states S acc w i)).2.1 = p - 1 ∧
      (loop S acc tol k i (states S acc w i)).2.2 = states S acc w p ∧
      ((loop S acc tol k i (states S acc w i)).1 = true ↔ distance (states S acc w (p - 1)) (states S acc w p) < tol) ∧
      (∀ j, i ≤ j → j + 1 < p → ¬ distance (states S acc w j) (states S acc w (j + 1)) < tol) ∧
      ((loop S acc tol k i (states S acc w i)).1 = false → p = i + k)
  | 0, _, h => absurd h (lt_irrefl _)
  | k + 1, i, _ => by
    have hres : res S acc (states S acc w i) = distance (states S acc w i) (states S acc w (i + 1)) := rfl
    rw [loop]
    by_cases hlt : res S acc (states S acc w i) < tol
    · rw [if_pos hlt]
      refine ⟨i + 1, by omega, by omega, by simp, rfl, ?_, ?_, by simp⟩
      · simp only [Nat.add_sub_cancel, true_iff]; rw [← hres]; exact hlt
      · intro j h1 h2; omega
    · rw [if_neg hlt]
      have hst : pass S acc (states S acc w i) = states S acc w (i + 1) := rfl
      rw [hst]
      rcases Nat.eq_zero_or_pos k with rfl | hk
      · refine ⟨i + 1, by omega, by omega, by simp [loop], rfl, ?_, ?_, by simp⟩
        · simp only [loop, Bool.false_eq_true, Nat.add_sub_cancel, false_iff]; rw [← hres]; exact hlt
        · intro j h1 h2; omega
      · obtain ⟨p, h1, h2, h3, h4, h5, h6, h7⟩ := loop_spec S acc tol w k (i + 1) hk
        refine ⟨p, by omega, by omega, h3, h4, h5, ?_, fun h => by have := h7 h; omega⟩
        intro j hj1 hj2
        rcases Nat.eq_or_lt_of_le hj1 with rfl | hj
        · rw [← hres]; exact hlt
        · exact h6 j hj hj2

/-- `iterativeSolve` makes between one and `iter` passes, stops after the first one that changes the targets by less than
the tolerance in the two norm, and returns `converged = True` exactly if the last pass did.  The reported number of
iterations is one less than the number of passes. -/
theorem C52_converged (S : Schemes n m σ) (iter : ℕ) (hiter : 0 < iter) (tol : ℝ) (acc : Bool) (w : World n m σ) :
    ∃ (converged : Bool) (iterations : ℕ) (w' : World n m σ) (performed : ℕ),
      iterativeSolve S iter tol none acc w = some (converged, iterations, w') ∧
      1 ≤ performed ∧ performed ≤ iter ∧ iterations + 1 = performed ∧ w' = states S acc w performed ∧
      (converged = true ↔ distance (states S acc w (performed - 1)) (states S acc w performed) < tol) ∧
      (∀ j, j + 1 < performed → ¬ distance (states S acc w j) (states S acc w (j + 1)) < tol) ∧
      (converged = false → performed = iter) := by
  obtain ⟨p, h1, h2, h3, h4, h5, h6, h7⟩ := loop_spec S acc tol w iter 0 hiter
  refine ⟨_, (loop S acc tol iter 0 (states S acc w 0)).2.1, _, p, ?_, by omega, by omega, ?_, h4, h5, fun j hj => h6 j (Nat.zero_le _) hj,
    fun h => by have := h7 h; omega⟩
  · unfold iterativeSolve
    rw [if_neg (by omega)]
    rfl
  · rw [h3]; omega

/-- Two scalar schemes: the bulk scheme halves `u`, the interface scheme sets `v` to zero. -/
noncomputable def halve : Schemes 1 1 Unit := ⟨fun w => (fun i => w.u i / 2, ()), fun _ => (fun _ => 0, ()), id⟩

theorem halve_one : iterativeSolve halve 1 2 none false ⟨fun _ => 2, fun _ => 0, ()⟩
    = some (true, 0, ⟨fun _ => 1, fun _ => 0, ()⟩) := by
  have hp : pass halve false ⟨fun _ => 2, fun _ => 0, ()⟩ = ⟨fun _ => 1, fun _ => 0, ()⟩ := by
    simp [pass, halve, doSolve, doISolve]
  have hr : res halve false ⟨fun _ => 2, fun _ => 0, ()⟩ < 2 := by
    unfold res
    rw [hp]
    unfold residuum
    simp only [Finset.univ_unique, Finset.sum_singleton]
    norm_num
  unfold iterativeSolve
  rw [if_neg (by omega)]
  simp only [useTol, halve, id]
  rw [loop]
  change some (if res halve false ⟨fun _ => 2, fun _ => 0, ()⟩ < 2 then _ else _) = _
  rw [if_pos hr]
  exact congrArg some (by
    have := hp
    unfold halve at this
    rw [this])

/-- The reported number of iterations is not the number of passes: one pass is reported as zero. -/
theorem C121_iterations_false : ∃ (S : Schemes 1 1 Unit) (w : World 1 1 Unit),
    (iterativeSolve S 1 2 none false w).map (fun r => (r.1, r.2.1)) = some (true, 0) ∧
    (iterativeSolve S 1 2 none false w).map (fun r => r.2.2) = some (states S false w 1) ∧
    states S false w 1 ≠ states S false w 0 := by
  have hp : pass halve false ⟨fun _ => 2, fun _ => 0, ()⟩ = ⟨fun _ => 1, fun _ => 0, ()⟩ := by
    simp [pass, halve, doSolve, doISolve]
  have h0 : states halve false ⟨fun _ => 2, fun _ => 0, ()⟩ 0 = ⟨fun _ => 2, fun _ => 0, ()⟩ := rfl
  have h1 : states halve false ⟨fun _ => 2, fun _ => 0, ()⟩ 1 = ⟨fun _ => 1, fun _ => 0, ()⟩ := by
    rw [states, h0, hp]
  refine ⟨halve, ⟨fun _ => 2, fun _ => 0, ()⟩, ?_, ?_, ?_⟩
  · rw [halve_one]; rfl
  · rw [halve_one, h1]; rfl
  · rw [h0, h1]
    intro h
    have := congrFun (congrArg World.u h) 0
    norm_num at this

/-- With `iter = 0` nothing is returned: the call fails. -/
theorem C121_zero_false (S : Schemes n m σ) (tol : ℝ) (fTol : Option ℝ) (acc : Bool) (w : World n m σ) :
    iterativeSolve S 0 tol fTol acc w = none := by
  unfold iterativeSolve; rw [if_pos rfl]

/-- The deprecated argument `f_tol` replaces the tolerance if and only if `tol` was given as well; on its own it is
ignored. -/
theorem C121_ftol_false (f : ℝ) : useTol (1 / 10 ^ 8) (some f) = 1 / 10 ^ 8 ∧
    ∀ tol, tol ≠ 1 / 10 ^ 8 → useTol tol (some f) = f := by
  constructor
  · unfold useTol; simp
  · intro tol h; unfold useTol; simp only; rw [if_pos h]

/-- If the targets are a fixed point of a pass, the next pass reports convergence, for every positive tolerance. -/
theorem C52_fixpoint (S : Schemes n m σ) (iter : ℕ) (hiter : 0 < iter) (tol : ℝ) (htol : 0 < tol) (acc : Bool)
    (w : World n m σ) (hu : (states S acc w 1).u = (states S acc w 0).u)
    (hv : (states S acc w 1).v = (states S acc w 0).v) :
    iterativeSolve S iter tol none acc w = some (true, 0, states S acc w 1) := by
  obtain ⟨k, rfl⟩ : ∃ k, iter = k + 1 := ⟨iter - 1, by omega⟩
  unfold iterativeSolve
  rw [if_neg (by omega)]
  simp only [useTol]
  rw [loop]
  have hd : res S acc (S.callback w) < tol := by
    have : res S acc (S.callback w) = distance (states S acc w 0) (states S acc w 1) := rfl
    rw [this, distance, hu, hv]
    simpa using htol
  rw [if_pos hd]
  rfl

example : ∃ w : World 1 1 Unit, (states halve false w 1).u = (states halve false w 0).u ∧
    (states halve false w 1).v = (states halve false w 0).v := by
  refine ⟨⟨fun _ => 0, fun _ => 0, ()⟩, ?_, ?_⟩ <;> simp [states, pass, halve, doSolve, doISolve]

/-! ## C67: acceleration -/

/-- If the errors of the iteration shrink by one and the same factor `c ≠ 1` (in particular for a scalar affine
iteration), the accelerated value is the fixed point. -/
theorem C67_exact {k : ℕ} (a fa ffa x : Fin k → ℝ) (c : ℝ) (hc : c ≠ 1) (h1 : ∀ i, fa i - x i = c * (a i - x i))
    (h2 : ∀ i, ffa i - x i = c * (fa i - x i)) : ironsTuck a fa ffa = x := by
  have e1 : ∀ i, fa i = x i + c * (a i - x i) := fun i => by linarith [h1 i]
  have e2 : ∀ i, ffa i = x i + c * (c * (a i - x i)) := fun i => by rw [← h1 i]; linarith [h2 i]
  have hd : ∀ i, ffa i - fa i = c * (c - 1) * (a i - x i) := fun i => by rw [e1, e2]; ring
  have hd2 : ∀ i, ffa i - fa i - fa i + a i = (c - 1) ^ 2 * (a i - x i) := fun i => by rw [e1, e2]; ring
  have hc1 : c - 1 ≠ 0 := sub_ne_zero.2 hc
  have s1 : ∑ i, (ffa i - fa i) * (ffa i - fa i - fa i + a i) = c * (c - 1) ^ 3 * ∑ i, (a i - x i) ^ 2 := by
    rw [Finset.mul_sum]
    refine Finset.sum_congr rfl fun i _ => ?_
    rw [hd2, hd]; ring
  have s2 : ∑ i, (ffa i - fa i - fa i + a i) * (ffa i - fa i - fa i + a i) = (c - 1) ^ 4 * ∑ i, (a i - x i) ^ 2 := by
    rw [Finset.mul_sum]
    refine Finset.sum_congr rfl fun i _ => ?_
    rw [hd2]; ring
  unfold ironsTuck dot
  simp only
  rw [s1, s2]
  by_cases hs : ∑ i, (a i - x i) ^ 2 = 0
  · rw [hs]
    simp only [mul_zero, ne_eq, not_true_eq_false, if_false]
    funext i
    have := (Finset.sum_eq_zero_iff_of_nonneg (fun i _ => sq_nonneg (a i - x i))).1 hs i (Finset.mem_univ i)
    have hz : a i - x i = 0 := by simpa using this
    rw [e2, hz]; ring
  · have hne : (c - 1) ^ 4 * ∑ i, (a i - x i) ^ 2 ≠ 0 := mul_ne_zero (pow_ne_zero 4 hc1) hs
    rw [if_pos hne]
    funext i
    rw [hd]
    have hq : c * (c - 1) ^ 3 * ∑ i, (a i - x i) ^ 2 = c / (c - 1) * ((c - 1) ^ 4 * ∑ i, (a i - x i) ^ 2) := by
      field_simp
    rw [hq, mul_div_assoc, div_self hne, e2]
    field_simp
    ring

/-- A fixed point stays where it is. -/
theorem C67_fixpoint {k : ℕ} (a : Fin k → ℝ) : ironsTuck a a a = a := by
  refine C67_exact a a a a 0 (by norm_num) (fun i => by ring) (fun i => by ring)

/-- An iteration that grows by the factor 3 is solved in one step as well. -/
example : ironsTuck (fun _ : Fin 2 => (2 : ℝ)) (fun _ => 4) (fun _ => 10) = fun _ => 1 := by
  refine C67_exact _ _ _ _ 3 (by norm_num) (fun i => by norm_num) (fun i => by norm_num)

/-- When the acceleration moves away from `ffa`, it does so along `ffa - fa` to the point where the extrapolated
second difference is orthogonal to the remaining one (a least squares choice of the factor). -/
theorem C67_least_squares {k : ℕ} (a fa ffa : Fin k → ℝ) :
    ∃ t : ℝ, (∀ i, ironsTuck a fa ffa i = ffa i - t * (ffa i - fa i)) ∧
      ∑ i, ((ffa i - fa i) - t * (ffa i - fa i - (fa i - a i))) * (ffa i - fa i - (fa i - a i)) = 0 := by
  have hd2 : ∀ i, ffa i - fa i - fa i + a i = ffa i - fa i - (fa i - a i) := fun i => by ring
  unfold ironsTuck dot
  simp only
  simp_rw [hd2]
  by_cases h : ∑ i, (ffa i - fa i - (fa i - a i)) * (ffa i - fa i - (fa i - a i)) = 0
  · rw [if_neg (by simpa using h)]
    refine ⟨0, fun i => by ring, ?_⟩
    refine Finset.sum_eq_zero fun i _ => ?_
    have := (Finset.sum_eq_zero_iff_of_nonneg
      (fun i _ => mul_self_nonneg (ffa i - fa i - (fa i - a i)))).1 h i (Finset.mem_univ i)
    rw [mul_self_eq_zero] at this
    rw [this, mul_zero]
  · rw [if_pos h]
    refine ⟨_, fun i => rfl, ?_⟩
    have : ∀ t : ℝ, ∑ i, ((ffa i - fa i) - t * (ffa i - fa i - (fa i - a i))) * (ffa i - fa i - (fa i - a i)) =
        ∑ i, (ffa i - fa i) * (ffa i - fa i - (fa i - a i)) -
          t * ∑ i, (ffa i - fa i - (fa i - a i)) * (ffa i - fa i - (fa i - a i)) := by
      intro t
      rw [Finset.mul_sum, ← Finset.sum_sub_distrib]
      exact Finset.sum_congr rfl fun i _ => by ring
    rw [this, div_mul_cancel₀ _ h, sub_self]

/-- Acceleration in the solver: if the two schemes contract (or expand) towards `x` and `y` with factors different from one
and the callback does not change the targets, the first accelerated pass ends at the solution `x`, `y`. -/
theorem C67_pass (S : Schemes n m σ) (x : Fin n → ℝ) (y : Fin m → ℝ) (c c' : ℝ) (hc : c ≠ 1) (hc' : c' ≠ 1)
    (hs : ∀ w i, (S.solve w).1 i = x i + c * (w.u i - x i)) (hi : ∀ w i, (S.isolve w).1 i = y i + c' * (w.v i - y i))
    (hcb : ∀ w, (S.callback w).u = w.u ∧ (S.callback w).v = w.v) (w : World n m σ) :
    (states S true w 1).u = x ∧ (states S true w 1).v = y := by
  simp only [states]
  unfold pass
  simp only [if_true, (hcb _).1, (hcb _).2]
  constructor
  · refine C67_exact _ _ _ x c hc (fun i => ?_) (fun i => ?_)
    · simp only [doSolve, doISolve, hs, (hcb _).1]; ring
    · simp only [doSolve, doISolve, hs, (hcb _).1]; ring
  · refine C67_exact _ _ _ y c' hc' (fun i => ?_) (fun i => ?_)
    · simp only [doSolve, doISolve, hi, (hcb _).2]; ring
    · simp only [doSolve, doISolve, hi, (hcb _).2]; ring

example : (states halve true ⟨fun _ => 8, fun _ => 5, ()⟩ 1).u = (fun _ => 0) ∧
    (states halve true ⟨fun _ => 8, fun _ => 5, ()⟩ 1).v = fun _ => 0 :=
  C67_pass halve _ _ (1 / 2) 0 (by norm_num) (by norm_num) (fun w i => by simp [halve]; ring)
    (fun w i => by simp [halve]) (fun w => ⟨rfl, rfl⟩) _

/-! ## C68: monolithicSolve -/

/-- The states after 0, 1, 2, … Newton steps. -/
noncomputable def nstates (N : Newton n m σ) (w : World n m σ) : ℕ → World n m σ
  | 0 => N.callback w
  | k + 1 => newtonPass N (nstates N w k) (N.scheme (nstates N w k)) (N.ischeme (nstates N w k))

/-- The two norm of a pair of vectors. -/
noncomputable def norm2 (a : Fin n → ℝ) (b : Fin m → ℝ) : ℝ := Real.sqrt (∑ i, a i ^ 2 + ∑ i, b i ^ 2)

/-- The criterion after step `j + 1`: the step and the residual of the schemes at the new targets are small. -/
def Small (N : Newton n m σ) (tol fTol : ℝ) (w : World n m σ) (j : ℕ) : Prop :=
  norm2 (N.step (nstates N w j) (N.scheme (nstates N w j)) (N.ischeme (nstates N w j))).1
    (N.step (nstates N w j) (N.scheme (nstates N w j)) (N.ischeme (nstates N w j))).2.1 < tol ∧
  norm2 (N.scheme (nstates N w (j + 1))) (N.ischeme (nstates N w (j + 1))) < fTol

theorem newton_spec (N : Newton n m σ) (tol fTol : ℝ) (w : World n m σ) : ∀ (k i : ℕ) (r : Bool × ℕ × World n m σ),
    newtonLoop N tol fTol k i (nstates N w i) (N.scheme (nstates N w i)) (N.ischeme (nstates N w i)) = r →
    i ≤ r.2.1 ∧ r.2.1 ≤ i + k ∧ r.2.2 = nstates N w r.2.1 ∧
      (r.1 = true → i < r.2.1 ∧ Small N tol fTol w (r.2.1 - 1)) ∧
      (∀ j, i ≤ j → (if r.1 then j + 1 < r.2.1 else j < r.2.1) → ¬ Small N tol fTol w j) ∧
      (r.1 = false → r.2.1 = i + k)
  | 0, i, r, h => by
    subst h
    simp only [newtonLoop]
    refine ⟨le_refl _, by omega, trivial, by simp, ?_, by simp⟩
    intro j h1 h2; simp at h2; omega
  | k + 1, i, r, h => by
    rw [newtonLoop] at h
    have hst : newtonPass N (nstates N w i) (N.scheme (nstates N w i)) (N.ischeme (nstates N w i))
        = nstates N w (i + 1) := rfl
    rw [hst] at h
    split_ifs at h with hc
    · subst h
      simp only
      refine ⟨by omega, by omega, trivial, fun _ => ⟨by omega, hc⟩, ?_, by simp⟩
      intro j h1 h2; simp at h2; omega
    · obtain ⟨h1, h2, h3, h4, h5, h6⟩ := newton_spec N tol fTol w k (i + 1) r h
      refine ⟨by omega, by omega, h3, fun hr => ⟨by omega, (h4 hr).2⟩, ?_, fun hr => by have := h6 hr; omega⟩
      intro j hj1 hj2
      rcases Nat.eq_or_lt_of_le hj1 with rfl | hj
      · exact hc
      · exact h5 j hj hj2

/-- `monolithicSolve` makes at most `iter` Newton steps and returns `True` exactly if one of them and the residual after it
are below the tolerances; then it has stopped at the first such step, the targets are the ones after this step and
the schemes' residual at the targets is below `f_tol`. -/
theorem C68_converged (N : Newton n m σ) (iter : ℕ) (tol fTol : ℝ) (w : World n m σ) (b : Bool) (p : ℕ)
    (w' : World n m σ) (h : monolithicSolve N iter tol fTol w = (b, p, w')) :
    p ≤ iter ∧ w' = nstates N w p ∧ (b = true ↔ ∃ j < iter, Small N tol fTol w j) ∧
    (b = true → 1 ≤ p ∧ Small N tol fTol w (p - 1) ∧ (∀ j, j + 1 < p → ¬ Small N tol fTol w j) ∧
      norm2 (N.scheme w') (N.ischeme w') < fTol) ∧
    (b = false → p = iter) := by
  obtain ⟨h1, h2, h3, h4, h5, h6⟩ := newton_spec N tol fTol w iter 0 (b, p, w') h
  simp only at h1 h2 h3 h4 h5 h6
  refine ⟨by omega, h3, ⟨fun hb => ?_, fun ⟨j, hj, hs⟩ => ?_⟩, fun hb => ?_, fun hb => by have := h6 hb; omega⟩
  · obtain ⟨h7, h8⟩ := h4 hb
    exact ⟨p - 1, by omega, h8⟩
  · by_contra hb
    have hb : b = false := by simpa using hb
    have := h6 hb
    subst hb
    exact h5 j (Nat.zero_le _) (by simp; omega) hs
  · obtain ⟨h7, h8⟩ := h4 hb
    refine ⟨by omega, h8, fun j hj => h5 j (Nat.zero_le _) (by rw [hb]; simpa using hj), ?_⟩
    have := h8.2
    rw [Nat.sub_add_cancel (by omega)] at this
    rw [h3]
    exact this

/-- Whenever `monolithicSolve` returns, the callback was called after the last change of the targets. -/
theorem C68_callback (N : Newton n m σ) (iter : ℕ) (tol fTol : ℝ) (w : World n m σ) :
    ∃ w', (monolithicSolve N iter tol fTol w).2.2 = N.callback w' := by
  have h := (newton_spec N tol fTol w iter 0 (monolithicSolve N iter tol fTol w) rfl).2.2.1
  rw [h]
  cases (monolithicSolve N iter tol fTol w).2.1 with
  | zero => exact ⟨w, rfl⟩
  | succ k => exact ⟨_, rfl⟩

/-- Linear problems are solved in one step: if the schemes' residuals are affine with linear parts `A` (bulk rows) and
`B` (interface rows), the Jacobian's step solves the linear system exactly and the callback does not change the
targets, then the residual after the first step is zero, and `monolithicSolve` returns `True` after one step if the step
is shorter than the tolerance. -/
theorem C68_affine (N : Newton n m σ) (A : (Fin n → ℝ) → (Fin m → ℝ) → Fin n → ℝ)
    (B : (Fin n → ℝ) → (Fin m → ℝ) → Fin m → ℝ)
    (hA : ∀ (u u' : Fin n → ℝ) (v v' : Fin m → ℝ) i, A (fun j => u j - u' j) (fun j => v j - v' j) i = A u v i - A u' v' i)
    (hB : ∀ (u u' : Fin n → ℝ) (v v' : Fin m → ℝ) i, B (fun j => u j - u' j) (fun j => v j - v' j) i = B u v i - B u' v' i)
    (a : Fin n → ℝ) (b : Fin m → ℝ)
    (hs : ∀ w i, N.scheme w i = A w.u w.v i - a i) (hi : ∀ w i, N.ischeme w i = B w.u w.v i - b i)
    (hstep : ∀ w f g, (∀ i, A (N.step w f g).1 (N.step w f g).2.1 i = f i) ∧
      ∀ i, B (N.step w f g).1 (N.step w f g).2.1 i = g i)
    (hcb : ∀ w, (N.callback w).u = w.u ∧ (N.callback w).v = w.v) (w : World n m σ) :
    (∀ i, N.scheme (nstates N w 1) i = 0) ∧ (∀ i, N.ischeme (nstates N w 1) i = 0) ∧
    ∀ iter tol fTol, 0 < iter → 0 < fTol → norm2 (N.step (nstates N w 0) (N.scheme (nstates N w 0))
      (N.ischeme (nstates N w 0))).1 (N.step (nstates N w 0) (N.scheme (nstates N w 0))
      (N.ischeme (nstates N w 0))).2.1 < tol →
      monolithicSolve N iter tol fTol w = (true, 1, nstates N w 1) := by
  have e1 : ∀ i, N.scheme (nstates N w 1) i = 0 := by
    intro i
    rw [hs]
    simp only [nstates, newtonPass, (hcb _).1, (hcb _).2]
    rw [hA, (hstep _ _ _).1, hs]
    simp only [(hcb _).1, (hcb _).2]
    ring
  have e2 : ∀ i, N.ischeme (nstates N w 1) i = 0 := by
    intro i
    rw [hi]
    simp only [nstates, newtonPass, (hcb _).1, (hcb _).2]
    rw [hB, (hstep _ _ _).2, hi]
    simp only [(hcb _).1, (hcb _).2]
    ring
  refine ⟨e1, e2, fun iter tol fTol h1 h2 h3 => ?_⟩
  have hsmall : Small N tol fTol w 0 := by
    refine ⟨h3, ?_⟩
    unfold norm2
    simp only [zero_add, e1, e2]
    simpa using h2
  cases hr : monolithicSolve N iter tol fTol w with
  | mk b r =>
    obtain ⟨p, w'⟩ := r
    obtain ⟨_, h5, h6, h7, _⟩ := C68_converged N iter tol fTol w b p w' hr
    have hb : b = true := h6.2 ⟨0, h1, hsmall⟩
    obtain ⟨h8, _, h9, _⟩ := h7 hb
    have hp : p = 1 := by
      by_contra hne
      exact h9 0 (by omega) hsmall
    subst hp
    rw [hb, h5]

/-- Affine schemes with an exact Jacobian: one step solves the system. -/
noncomputable def affine : Newton 1 1 Unit :=
  ⟨fun w i => 2 * w.u i - 6, fun w i => w.v i - 1, id, fun _ f g => (fun i => f i / 2, g, ())⟩

theorem affine_solved : monolithicSolve affine 30 (10 ^ 10) (1 / 10 ^ 7) ⟨fun _ => 0, fun _ => 0, ()⟩
    = (true, 1, ⟨fun _ => 3, fun _ => 1, ()⟩) := by
  unfold monolithicSolve
  simp only
  rw [newtonLoop]
  have hw : newtonPass affine (affine.callback ⟨fun _ => 0, fun _ => 0, ()⟩)
      (affine.scheme (affine.callback ⟨fun _ => 0, fun _ => 0, ()⟩))
      (affine.ischeme (affine.callback ⟨fun _ => 0, fun _ => 0, ()⟩)) = ⟨fun _ => 3, fun _ => 1, ()⟩ := by
    simp only [newtonPass, affine, id, World.mk.injEq, and_true]
    constructor <;> funext i <;> norm_num
  rw [hw, if_pos]
  constructor
  · unfold residuum affine
    simp only [Finset.univ_unique, Finset.sum_singleton, id]
    rw [Real.sqrt_lt' (by norm_num)]
    norm_num
  · unfold residuum affine
    simp only [Finset.univ_unique, Finset.sum_singleton]
    norm_num

/-- The initial residual is not looked at: targets that solve the system are reported as not converged with `iter = 0`,
and every Jacobian is applied at least once otherwise. -/
theorem C68_initial_false : ∃ (N : Newton 1 1 Unit) (w : World 1 1 Unit),
    norm2 (N.scheme (N.callback w)) (N.ischeme (N.callback w)) = 0 ∧ (monolithicSolve N 0 1 1 w).1 = false := by
  refine ⟨affine, ⟨fun _ => 3, fun _ => 1, ()⟩, ?_, rfl⟩
  unfold norm2 affine
  simp only [id, Finset.univ_unique, Finset.sum_singleton]
  norm_num

/-! ## C69: when the callback is called -/

/-- What the solver calls: the callback, `scheme.solve(u)`, `ischeme.solve(v)`. -/
inductive Call where
  | callback
  | solve
  | isolve
  deriving DecidableEq

/-- The same schemes and callback, with a record of the calls (latest last). -/
def traced (S : Schemes n m σ) : Schemes n m (σ × List Call) where
  solve w := ((S.solve ⟨w.u, w.v, w.env.1⟩).1, (S.solve ⟨w.u, w.v, w.env.1⟩).2, w.env.2 ++ [.solve])
  isolve w := ((S.isolve ⟨w.u, w.v, w.env.1⟩).1, (S.isolve ⟨w.u, w.v, w.env.1⟩).2, w.env.2 ++ [.isolve])
  callback w :=
    let w' := S.callback ⟨w.u, w.v, w.env.1⟩
    ⟨w'.u, w'.v, w'.env, w.env.2 ++ [.callback]⟩

/-- The record without the targets and the schemes' own state. -/
def calls (w : World n m (σ × List Call)) : List Call := w.env.2

/-- Recording changes nothing else. -/
theorem traced_states (S : Schemes n m σ) (acc : Bool) (u : Fin n → ℝ) (v : Fin m → ℝ) (e : σ) (l : List Call) :
    ∀ k, (⟨(states (traced S) acc ⟨u, v, e, l⟩ k).u, (states (traced S) acc ⟨u, v, e, l⟩ k).v,
      (states (traced S) acc ⟨u, v, e, l⟩ k).env.1⟩ : World n m σ) = states S acc ⟨u, v, e⟩ k
  | 0 => rfl
  | k + 1 => by
    rw [states, states, ← traced_states S acc u v e l k]
    generalize states (traced S) acc ⟨u, v, e, l⟩ k = w
    cases acc <;> rfl

/-- Calls made in `k` passes, for every scheme and callback: the callback, then in each pass the bulk scheme, the interface
scheme and the callback (twice with acceleration). -/
theorem C69_calls (S : Schemes n m σ) (acc : Bool) (u : Fin n → ℝ) (v : Fin m → ℝ) (e : σ) : ∀ k,
    calls (states (traced S) acc ⟨u, v, e, []⟩ k) =
      Call.callback :: (List.replicate (if acc then 2 * k else k) [Call.solve, .isolve, .callback]).flatten
  | 0 => by cases acc <;> rfl
  | k + 1 => by
    have ih := C69_calls S acc u v e k
    rw [states]
    generalize states (traced S) acc ⟨u, v, e, []⟩ k = w at ih
    cases acc with
    | false =>
      have : calls (pass (traced S) false w) = calls w ++ [.solve, .isolve, .callback] := by
        simp only [calls, pass, traced, doSolve, doISolve, Bool.false_eq_true, if_false, List.append_assoc,
          List.cons_append, List.nil_append]
      rw [this, ih]
      simp only [Bool.false_eq_true, if_false]
      rw [List.replicate_succ', List.flatten_append]
      simp
    | true =>
      have : calls (pass (traced S) true w) =
          calls w ++ [.solve, .isolve, .callback, .solve, .isolve, .callback] := by
        simp only [calls, pass, traced, doSolve, doISolve, if_true, List.append_assoc, List.cons_append,
          List.nil_append]
      rw [this, ih]
      simp only [if_true]
      rw [show 2 * (k + 1) = 2 * k + 1 + 1 by ring, List.replicate_succ', List.replicate_succ', List.flatten_append,
        List.flatten_append]
      simp

/-- Before each bulk solve, and after the last interface solve, the callback is called: the targets the callback sees are
the ones the solver returns. -/
theorem C69_last (S : Schemes n m σ) (acc : Bool) (u : Fin n → ℝ) (v : Fin m → ℝ) (e : σ) (k : ℕ) :
    ∃ l, calls (states (traced S) acc ⟨u, v, e, []⟩ k) = l ++ [.callback] := by
  cases k with
  | zero => exact ⟨[], rfl⟩
  | succ k =>
    rw [states]
    exact ⟨_, rfl⟩

/-- The interface scheme is always solved directly after the bulk scheme, without a call of the callback in between: the
description "called every time before solving a scheme" is wrong for it. -/
theorem C128_false (S : Schemes n m σ) (acc : Bool) (u : Fin n → ℝ) (v : Fin m → ℝ) (e : σ) :
    ∃ l l', calls (states (traced S) acc ⟨u, v, e, []⟩ 1) = l ++ [.solve, .isolve] ++ l' := by
  refine ⟨[.callback], if acc then [.callback, .solve, .isolve, .callback] else [.callback], ?_⟩
  rw [C69_calls]
  cases acc <;> rfl

end Verif.Solve
