import Mathlib.Algebra.BigOperators.Group.List.Basic
import Mathlib.Tactic.Ring

/-!
# C207: the calls of the callback on several processes

python/dune/mmesh/_solve.py and dune/python/mmesh/jacobian_iterative.hh. Every process performs a sequence of actions that
involve the callback or all processes. If the callback communicates with all processes (for instance because it interpolates
a function on a parallel grid), the sequences have to agree: an operation of all processes is carried out only if all of them
come to it, in the same order.
-/

namespace Verif.Jacobian.Calls

/-- What a process does: it calls the callback, it evaluates one of the schemes or its Jacobian (dune-fem, with a communication
of all processes), it solves the linear system (with scalar products over all processes), it computes a norm (_solve.py:155-160,
190-206, jacobian_iterative.hh:277-328). -/
inductive Event
  | callback | evaluate | jacobian | solve | norm
deriving DecidableEq

/-- What a process has of the grid: the sizes of its parts of the two functions (jacobian_iterative.hh:253-254), for each of its
interface elements the number of dofs, for each of its elements the number of dofs and of intersections that belong to the
interface. -/
structure Part where
  n : ℕ
  m : ℕ
  tdofs : List ℕ
  udofs : List (ℕ × ℕ)

/-- `assembleB` (jacobian_iterative.hh:331-442): two calls for each dof of each interface element. -/
def assembleB (P : Part) (l : List Event) : List Event :=
  P.tdofs.foldl (fun l d => (List.range d).foldl (fun l _ => l ++ [.callback, .callback]) l) l

/-- `assembleC` (jacobian_iterative.hh:444-523): for each element and each of its intersections with the
interface, two calls for each dof of the element. -/
def assembleC (P : Part) (l : List Event) : List Event :=
  P.udofs.foldl (fun l e => (List.range e.2).foldl (fun l _ =>
    (List.range e.1).foldl (fun l _ => l ++ [.callback, .callback]) l) l) l

/-- `update` (jacobian_iterative.hh:277-287). -/
def update (P : Part) (l : List Event) : List Event :=
  let l := l ++ [.jacobian, .jacobian]
  if P.n > 0 ∧ P.m > 0 then assembleC P (assembleB P l) else l

/-- One pass of the loop of `monolithicSolve` (_solve.py:190-206). -/
def pass (P : Part) (l : List Event) : List Event := update P l ++ [.solve, .norm, .callback, .evaluate, .evaluate, .norm]

/-- `monolithicSolve` with `k` passes (_solve.py:123-218; all processes make the same number of passes as they see the same
norms). -/
def run (P : Part) (k : ℕ) : List Event :=
  (List.range k).foldl (fun l _ => pass P l) [.callback, .evaluate, .evaluate]

/-- How often the callback is called while a Jacobian is assembled: twice for each pair of an interface element and one of its
dofs, and for each dof of an element at each side with an interface element. -/
def calls (P : Part) : ℕ :=
  if P.n = 0 ∨ P.m = 0 then 0 else 2 * (P.tdofs.sum + (P.udofs.map fun e => e.2 * e.1).sum)

theorem inner (d : ℕ) (l : List Event) :
    (List.range d).foldl (fun l _ => l ++ [.callback, .callback]) l = l ++ List.replicate (2 * d) Event.callback := by
  induction d with
  | zero => simp
  | succ d ih =>
    rw [List.range_succ, List.foldl_append, ih]
    simp only [List.foldl_cons, List.foldl_nil, List.append_assoc]
    congr 1
    rw [show 2 * (d + 1) = 2 * d + 2 by ring, List.replicate_add]
    rfl

theorem assembleB_eq (P : Part) (l : List Event) :
    assembleB P l = l ++ List.replicate (2 * P.tdofs.sum) Event.callback := by
  unfold assembleB
  generalize P.tdofs = ds
  induction ds generalizing l with
  | nil => simp
  | cons d ds ih =>
    rw [List.foldl_cons, inner, ih, List.append_assoc, ← List.replicate_add, List.sum_cons, Nat.mul_add]

theorem middle (c d : ℕ) (l : List Event) :
    (List.range c).foldl (fun l _ => (List.range d).foldl (fun l _ => l ++ [.callback, .callback]) l) l =
      l ++ List.replicate (2 * (c * d)) Event.callback := by
  induction c with
  | zero => simp
  | succ c ih =>
    rw [List.range_succ, List.foldl_append, ih]
    simp only [List.foldl_cons, List.foldl_nil]
    rw [inner, List.append_assoc, ← List.replicate_add]
    congr 2
    ring

theorem assembleC_eq (P : Part) (l : List Event) :
    assembleC P l = l ++ List.replicate (2 * (P.udofs.map fun e => e.2 * e.1).sum) Event.callback := by
  unfold assembleC
  generalize P.udofs = es
  induction es generalizing l with
  | nil => simp
  | cons e es ih =>
    rw [List.foldl_cons, middle, ih, List.append_assoc, ← List.replicate_add, List.map_cons, List.sum_cons, Nat.mul_add]

theorem update_eq (P : Part) (l : List Event) :
    update P l = l ++ [.jacobian, .jacobian] ++ List.replicate (calls P) Event.callback := by
  unfold update calls
  by_cases h : P.n = 0 ∨ P.m = 0
  · have : ¬ (P.n > 0 ∧ P.m > 0) := by omega
    simp [h, this]
  · have : P.n > 0 ∧ P.m > 0 := by omega
    simp only [this, h, and_self, if_true, if_false]
    rw [assembleB_eq, assembleC_eq, List.append_assoc, ← List.replicate_add, Nat.mul_add]

/-- What one pass adds. -/
def step (P : Part) : List Event :=
  [.jacobian, .jacobian] ++ List.replicate (calls P) .callback ++ [.solve, .norm, .callback, .evaluate, .evaluate, .norm]

theorem run_eq (P : Part) (k : ℕ) :
    run P k = [.callback, .evaluate, .evaluate] ++ (List.replicate k (step P)).flatten := by
  unfold run
  induction k with
  | zero => simp
  | succ k ih =>
    rw [List.range_succ, List.foldl_append, ih]
    simp only [List.foldl_cons, List.foldl_nil, pass, update_eq, step]
    rw [List.replicate_succ', List.flatten_append]
    simp [List.append_assoc]

/-- C207: how often the callback is called: once at the beginning, and in each pass once and as often as `calls` says. -/
theorem C207_count (P : Part) (k : ℕ) : (run P k).count .callback = 1 + k * (1 + calls P) := by
  rw [run_eq, List.count_append]
  have h : ∀ k, ((List.replicate k (step P)).flatten).count .callback = k * (1 + calls P) := by
    intro k
    induction k with
    | zero => simp
    | succ k ih =>
      rw [List.replicate_succ, List.flatten_cons, List.count_append, ih]
      have : (step P).count .callback = 1 + calls P := by
        simp [step, List.count_append, Nat.add_comm]
      rw [this]; ring
  rw [h]
  rfl

/-- C207 is false: one process has an element at the interface, another one has elements but no part of the interface. They do
not perform the same sequence of operations, so that a callback that communicates with all processes meets the linear solver of
the other process. -/
theorem C207_collective_false : ¬ ∀ (P Q : Part) (k : ℕ), run P k = run Q k := by
  intro h
  have := congrArg (List.count Event.callback) (h ⟨6, 1, [1], [(3, 1), (3, 1)]⟩ ⟨6, 0, [], [(3, 0), (3, 0)]⟩ 1)
  rw [C207_count, C207_count] at this
  revert this
  decide

/-- What holds of C207: two processes perform the same sequence of operations if and only if they have equally many of the pairs
above, or no pass is made. -/
theorem C207_collective_partial (P Q : Part) (k : ℕ) : run P k = run Q k ↔ k = 0 ∨ calls P = calls Q := by
  constructor
  · intro h
    by_cases hk : k = 0
    · exact Or.inl hk
    · right
      have := congrArg (List.count Event.callback) h
      rw [C207_count, C207_count] at this
      have h2 := Nat.eq_of_mul_eq_mul_left (Nat.pos_of_ne_zero hk) (Nat.add_left_cancel this)
      omega
  · rintro (rfl | h)
    · rfl
    · rw [run_eq, run_eq, step, step, h]

/-- Two processes with equally many calls. -/
example : run ⟨6, 1, [1], [(3, 1), (3, 1)]⟩ 2 = run ⟨9, 2, [1], [(3, 1), (3, 0), (3, 1)]⟩ 2 ∧
    calls ⟨6, 1, [1], [(3, 1), (3, 1)]⟩ = 14 := by decide

end Verif.Jacobian.Calls
