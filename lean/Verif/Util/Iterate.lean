import Mathlib.Data.List.Basic
import Mathlib.Data.List.TakeWhile

/-!
# Iterators that skip

A filtering iterator is modelled by the list of remaining items; `rangeFor` is the list of items a range-based `for`
visits: construction skips to the first item to keep, `increment` moves one on and skips again.
-/

namespace Verif.Iterate

variable {α : Type*}

/-- `while (it != end && !keep(*it)) ++it;` -/
def skip (keep : α → Bool) (it : List α) : List α := it.dropWhile fun a => !keep a

/-- The items visited from a position on: `*it`, then `++it` followed by `skip`, until the end. -/
def visit (keep : α → Bool) : List α → List α
  | [] => []
  | a :: rest => a :: visit keep (skip keep rest)
termination_by l => l.length
decreasing_by
  have := (List.dropWhile_sublist (l := rest) (p := fun a => !keep a)).length_le
  simp only [skip, List.length_cons]
  omega

/-- The items visited by `for (x : range)`. -/
def rangeFor (keep : α → Bool) (items : List α) : List α := visit keep (skip keep items)

theorem rangeFor_eq_filter (keep : α → Bool) (items : List α) : rangeFor keep items = items.filter keep := by
  unfold rangeFor
  induction items with
  | nil => simp [skip, visit]
  | cons a items ih =>
    unfold skip
    rw [List.dropWhile_cons]
    by_cases h : keep a
    · rw [if_neg (by simp [h]), visit, List.filter_cons_of_pos h, ih]
    · rw [if_pos (by simp [h]), List.filter_cons_of_neg h]
      exact ih

end Verif.Iterate
