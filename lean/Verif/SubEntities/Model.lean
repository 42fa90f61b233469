import Mathlib.Data.Nat.Factorial.BigOperators
import Mathlib.Data.Nat.Choose.Basic
import Mathlib.Data.Finset.Powerset
import Mathlib.Data.Fintype.Card
import Mathlib.Tactic.Ring
import Mathlib.Tactic.IntervalCases
import Mathlib.Algebra.BigOperators.Group.Finset.Basic
import Mathlib.Algebra.BigOperators.Intervals
import Mathlib.Algebra.Order.Ring.Nat

/-!
# `subEntities(cc)` of every entity class (model)
-/

namespace Verif.SubEntities

/-- The two loops shared by grid/entity.hh:173-178, grid/cachingentity.hh:142-147 and
interface/cachingentity.hh:134-139:
`for (i = n-k+1; i <= n; i++) binomial *= i; for (i = 2; i <= k; i++) binomial /= i;` (`int` division truncates).
Overflow of `int` is not modelled. -/
def binomialLoop (n k : Int) : Int :=
  let product := (List.range (n - (n - k + 1) + 1).toNat).foldl (fun (b : Int) (j : Nat) => b * (n - k + 1 + j)) 1
  (List.range (k - 2 + 1).toNat).foldl (fun (b : Int) (j : Nat) => Int.tdiv b (2 + j)) product

/-- grid/entity.hh:168-179: bulk entities of codimension greater than 0. The mixed signed/unsigned expression
`dim - cc + 1` is evaluated modulo `2^32` and converted back to `int`, which is the integer value used here. -/
def bulkSubEntities (dim codim cc : Nat) : Int :=
  binomialLoop ((dim : Int) - codim + 1) ((dim : Int) - cc + 1)

/-- grid/cachingentity.hh:137-148 and interface/cachingentity.hh:129-140: caching entities (codimension 0). -/
def cachingSubEntities (dim cc : Nat) : Int := binomialLoop ((dim : Int) + 1) ((dim : Int) - cc + 1)

/-- interface/entity.hh:134-138: interface entities of codimension greater than 0 (`dim` 1 or 2; other
dimensions do not exist). -/
def interfaceSubEntities (dim cc : Nat) : Option Int :=
  if dim = 1 then some (if cc = 0 then 0 else 2)
  else if dim = 2 then some (if cc = 0 then 0 else 3)
  else none

/-- interface/entity.hh:556-560: interface elements (codimension 0). -/
def interfaceElementSubEntities (dim cc : Nat) : Option Int :=
  if dim = 1 then some (if cc = 0 then 1 else 2)
  else if dim = 2 then some (if cc = 0 then 1 else 3)
  else none

end Verif.SubEntities
