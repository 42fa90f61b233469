import Mathlib.Algebra.BigOperators.Fin
import Mathlib.Analysis.Real.Sqrt

/-!
# Model of the coupled solvers (python/dune/mmesh/_solve.py)

The degrees of freedom of the two targets are real vectors; everything else the schemes and the callback may depend on
or change is a state `σ`.  The schemes and the callback are arbitrary functions.  Rounding, `nan` and the printing of
residuals are not modelled.
-/

namespace Verif.Solve

/-- The targets `u`, `v` and everything else. (Models: python/dune/mmesh/_solve.py:54-58, 147-160.) -/
structure World (n m : ℕ) (σ : Type) where
  u : Fin n → ℝ
  v : Fin m → ℝ
  env : σ

/-- What is passed to the solvers: the two schemes (`solve` writes its argument and may read everything) and the
callback (`None` is the identity). (Models: python/dune/mmesh/_solve.py:51-55.) -/
structure Schemes (n m : ℕ) (σ : Type) where
  solve : World n m σ → (Fin n → ℝ) × σ
  isolve : World n m σ → (Fin m → ℝ) × σ
  callback : World n m σ → World n m σ

variable {n m : ℕ} {σ : Type}

/-- `scheme.solve(u)` (_solve.py:79, 89). -/
def doSolve (S : Schemes n m σ) (w : World n m σ) : World n m σ := { w with u := (S.solve w).1, env := (S.solve w).2 }

/-- `ischeme.solve(v)` (_solve.py:80, 90). -/
def doISolve (S : Schemes n m σ) (w : World n m σ) : World n m σ := { w with v := (S.isolve w).1, env := (S.isolve w).2 }

/-- `np.dot` (_solve.py:98-99, 104-105). -/
def dot {k : ℕ} (x y : Fin k → ℝ) : ℝ := ∑ i, x i * y i

/-- The Irons-Tuck update of one target (_solve.py:95-99, 101-105) from `a`, `fa`, `ffa`. -/
noncomputable def ironsTuck {k : ℕ} (a fa ffa : Fin k → ℝ) : Fin k → ℝ :=
  let d := fun i => ffa i - fa i
  let d2 := fun i => d i - fa i + a i
  if dot d2 d2 ≠ 0 then fun i => ffa i - dot d d2 / dot d2 d2 * d i else ffa

/-- `residuum` (_solve.py:67-68). -/
noncomputable def residuum (a : Fin n → ℝ) (b : Fin m → ℝ) : ℝ := Real.sqrt (∑ i, a i ^ 2 + ∑ i, b i ^ 2)

/-- One pass of the loop up to the second callback (_solve.py:75-108).  `a`, `b` are the values of the targets at the
beginning. -/
noncomputable def pass (S : Schemes n m σ) (accelerate : Bool) (w : World n m σ) : World n m σ :=
  let w1 := doISolve S (doSolve S w)
  let w2 :=
    if accelerate then
      let w3 := doISolve S (doSolve S (S.callback w1))
      { w3 with u := ironsTuck w.u w1.u w3.u, v := ironsTuck w.v w1.v w3.v }
    else w1
  S.callback w2

/-- `res` (_solve.py:110): the difference of the targets after and before the pass. -/
noncomputable def res (S : Schemes n m σ) (accelerate : Bool) (w : World n m σ) : ℝ :=
  residuum (fun i => (pass S accelerate w).u i - w.u i) (fun i => (pass S accelerate w).v i - w.v i)

/-- The loop (_solve.py:74-117): `k` passes are left, `i` is the loop variable.  Returns `converged`, the value of `i`
after the loop and the final state. -/
noncomputable def loop (S : Schemes n m σ) (accelerate : Bool) (tol : ℝ) : ℕ → ℕ → World n m σ → Bool × ℕ × World n m σ
  | 0, i, w => (false, i - 1, w)
  | k + 1, i, w =>
    open Classical in
    if res S accelerate w < tol then (true, i, pass S accelerate w)
    else loop S accelerate tol k (i + 1) (pass S accelerate w)

/-- The tolerance that is used (_solve.py:46-49); `fTol` is the deprecated argument. -/
noncomputable def useTol (tol : ℝ) (fTol : Option ℝ) : ℝ :=
  match fTol with
  | none => tol
  | some f => open Classical in if tol ≠ 1 / 10 ^ 8 then f else tol

/-- `iterativeSolve` (_solve.py:28-119).  `none`: the variable `i` is unbound when no pass is made (`UnboundLocalError`
in line 119). -/
noncomputable def iterativeSolve (S : Schemes n m σ) (iter : ℕ) (tol : ℝ) (fTol : Option ℝ) (accelerate : Bool)
    (w : World n m σ) : Option (Bool × ℕ × World n m σ) :=
  if iter = 0 then none else some (loop S accelerate (useTol tol fTol) iter 0 (S.callback w))

/-! ## `monolithicSolve` -/

/-- What Newton's method is given: the residuals of the schemes (`scheme(uh, f)`, `ischeme(th, g)`: functions of
everything), the callback, and the step computed by the Jacobian from the current state and the residuals
(`jacobian.update(uh, th)`, `jacobian.solve(f, g, ux, tx)`; a C++ class that is compiled at run time, arbitrary here;
both may call the callback, so they may change the state). (Models: python/dune/mmesh/_solve.py:144-160.) -/
structure Newton (n m : ℕ) (σ : Type) where
  scheme : World n m σ → Fin n → ℝ
  ischeme : World n m σ → Fin m → ℝ
  callback : World n m σ → World n m σ
  step : World n m σ → (Fin n → ℝ) → (Fin m → ℝ) → (Fin n → ℝ) × (Fin m → ℝ) × σ

/-- `uh -= ux; th -= tx; call()` (_solve.py:192-202). -/
def newtonPass (N : Newton n m σ) (w : World n m σ) (f : Fin n → ℝ) (g : Fin m → ℝ) : World n m σ :=
  N.callback ⟨fun i => w.u i - (N.step w f g).1 i, fun i => w.v i - (N.step w f g).2.1 i, (N.step w f g).2.2⟩

/-- The loop (_solve.py:190-218): `k` passes are left; `f`, `g` are the stored residuals.  Returns the answer, the
number of passes and the final state. -/
noncomputable def newtonLoop (N : Newton n m σ) (tol fTol : ℝ) : ℕ → ℕ → World n m σ → (Fin n → ℝ) → (Fin m → ℝ) →
    Bool × ℕ × World n m σ
  | 0, i, w, _, _ => (false, i, w)
  | k + 1, i, w, f, g =>
    let w' := newtonPass N w f g
    let f' := N.scheme w'
    let g' := N.ischeme w'
    open Classical in
    if residuum (N.step w f g).1 (N.step w f g).2.1 < tol ∧ residuum f' g' < fTol then (true, i + 1, w')
    else newtonLoop N tol fTol k (i + 1) w' f' g'

/-- `monolithicSolve` (_solve.py:123-218). -/
noncomputable def monolithicSolve (N : Newton n m σ) (iter : ℕ) (tol fTol : ℝ) (w : World n m σ) :
    Bool × ℕ × World n m σ :=
  let w0 := N.callback w
  newtonLoop N tol fTol iter 0 w0 (N.scheme w0) (N.ischeme w0)

end Verif.Solve
