import Mathlib.Data.List.Basic
import Mathlib.Data.Rat.Defs
import Mathlib.Algebra.Order.Ring.Rat

/-!
# Model of `moveMesh` (python/dune/mmesh/_move.py)

A run is the list of calls that `moveMesh` makes, with their answers.  The grid, the callback `getShifts` and the
adaptation are the environment: their answers are arbitrary functions of everything that happened before.
-/

namespace Verif.MoveMesh

/-- What `getShifts` returns.  The docstring (_move.py:13) asks for "a list with shift per interface vertex index";
examples return numpy arrays (doc/examples/twophase.py:127). -/
inductive Shifts where
  | array (l : List (ℚ × ℚ))
  | list (l : List (ℚ × ℚ))
  deriving DecidableEq

/-- The vectors that a binding with argument `std::vector<GlobalCoordinate>` receives (dune/python/mmesh/grid.hh:88-95). -/
def Shifts.vectors : Shifts → List (ℚ × ℚ)
  | .array l => l
  | .list l => l

/-- Python's `2 * shifts` (_move.py:31): arrays are scaled, lists are repeated. -/
def twice : Shifts → Shifts
  | .array l => .array (l.map fun p => (2 * p.1, 2 * p.2))
  | .list l => .list (l ++ l)

/-- Calls and their answers: `getShifts()` (python/dune/mmesh/_move.py:28, 37), `hgrid.ensureInterfaceMovement(s)` (python/dune/mmesh/_move.py:31), `adapt(gridFunctions)` (python/dune/mmesh/_move.py:34,
45), `adapt(igridFunctions)` (python/dune/mmesh/_move.py:36, 47), `hgrid.moveInterface(s)` (python/dune/mmesh/_move.py:39), `hgrid.markElements()` (python/dune/mmesh/_move.py:42). -/
inductive Event where
  | getShifts (s : Shifts)
  | ensure (s : Shifts) (b : Bool)
  | adapt
  | iadapt
  | move (s : Shifts)
  | mark (b : Bool)
  deriving DecidableEq

/-- The answers of the environment, depending on everything that happened (latest event first). (Models:
python/dune/mmesh/_move.py:28-47.) -/
structure Env where
  shifts : List Event → Shifts
  ensure : List Event → Shifts → Bool
  mark : List Event → Bool

/-- The arguments: is `gridFunctions` non-empty, is `igridFunctions` given, is `getShifts` given. (Models:
python/dune/mmesh/_move.py:7, 27, 33, 35.) -/
structure Args where
  grid : Bool
  igrid : Bool
  move : Bool

/-- The adaptation of the functions (_move.py:33-36, 44-47); the latest event is at the head of the history. -/
def adapts (a : Args) (h : List Event) : List Event :=
  let h := if a.grid then .adapt :: h else h
  if a.igrid then .iadapt :: h else h

/-- The loop (_move.py:31-37): `k` is `10 - ensure`, `s` the variable `shifts`.  Returns history, `ensure` and
`shifts`. -/
def ensureLoop (E : Env) (a : Args) : ℕ → List Event → Shifts → List Event × ℕ × Shifts
  | 0, h, s => (.ensure (twice s) (E.ensure h (twice s)) :: h, 10, s)
  | k + 1, h, s =>
    let b := E.ensure h (twice s)
    let h1 := .ensure (twice s) b :: h
    if b then
      let h2 := adapts a h1
      let s' := E.shifts h2
      ensureLoop E a k (.getShifts s' :: h2) s'
    else (h1, 10 - (k + 1), s)

/-- The loop (_move.py:42-47): `k` is `10 - mark`. -/
def markLoop (E : Env) (a : Args) : ℕ → List Event → List Event × ℕ
  | 0, h => (.mark (E.mark h) :: h, 10)
  | k + 1, h =>
    let b := E.mark h
    let h1 := .mark b :: h
    if b then markLoop E a k (adapts a h1) else (h1, 10 - (k + 1))

/-- `moveMesh` (_move.py:7-49).  Returns all events (latest first) and the returned numbers `ensure`, `mark`.  The
assertion in line 29 is not modelled. -/
def moveMesh (E : Env) (a : Args) : List Event × ℕ × ℕ :=
  if a.move then
    let s := E.shifts []
    let r := ensureLoop E a 10 [.getShifts s] s
    let t := markLoop E a 10 (.move r.2.2 :: r.1)
    (t.1, r.2.1, t.2)
  else
    let t := markLoop E a 10 []
    (t.1, 0, t.2)

end Verif.MoveMesh
