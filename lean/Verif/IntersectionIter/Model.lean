import Mathlib.Data.Nat.Init
import Mathlib.Data.List.Basic

/-!
# Intersection iterator of the bulk grid (model)

`part c` is `info().partition` of an element: 0 interior, 2 ghost, -1 not on this process. `nb c s` is the neighbour across the facet opposite to the vertex in slot `s`; `none` stands for an infinite
cell. In a serial run all elements have `part c = 0` (cgal/defaults.hh:47).
-/

namespace Verif.IntersectionIter

variable (dim : Nat) (part : Nat → Int) (nb : Nat → Nat → Option Nat) (c : Nat)

/-- `proceed` (grid/intersectioniterator.hh:79-93). -/
def proceed (i : Nat) : Bool :=
  if i = dim + 1 then false
  else if part c = 2 then
    match nb c (dim - i) with
    | none => true
    | some d => decide (part d ≠ 0)
  else false

/-- The loop in `increment` (grid/intersectioniterator.hh:64-68), `left` is the number of slots left. `none`: an iterator at or behind the end is incremented, then slots that do not exist are read. -/
def advance : Nat → Nat → Option Nat
  | 0, _ => none
  | left + 1, i => if proceed dim part nb c (i + 1) then advance left (i + 1) else some (i + 1)

/-- `increment` (grid/intersectioniterator.hh:64-68). -/
def increment (i : Nat) : Option Nat := advance dim part nb c (dim + 1 - i) i

/-- The loop `while (proceed()) increment();` with a bound on the number of rounds. (Models: grid/intersectioniterator.hh:51.) -/
def settle : Nat → Nat → Option Nat
  | 0, _ => none
  | fuel + 1, i =>
    if proceed dim part nb c i then
      match increment dim part nb c i with
      | none => none
      | some j => settle fuel j
    else some i

/-- The begin iterator (grid/intersectioniterator.hh:48-52). The second round of the loop is never entered (see `C228_iterate`, where the result is not `none`), so two rounds are enough. -/
def begin : Option Nat := settle dim part nb c 2 0

/-- The end iterator (grid/intersectioniterator.hh:55-57). -/
def endIt : Nat := dim + 1

/-- `dereference` (grid/intersectioniterator.hh:71-75): the slot of the facet. -/
def dereference (i : Nat) : Nat := dim - i

/-- The slots of the facets that a loop `for (it = i; it != end; ++it)` visits. The two iterators belong to the same element, so `equals` (grid/intersectioniterator.hh:59-61) compares the counters. -/
inductive Walk : Nat → List Nat → Prop
  | done : Walk (endIt dim) []
  | step {i j : Nat} {l : List Nat} : i ≠ endIt dim → increment dim part nb c i = some j → Walk j l → Walk i (dereference dim i :: l)

end Verif.IntersectionIter
