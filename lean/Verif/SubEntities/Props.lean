import Verif.SubEntities.Model

/-!
# C12: `subEntities(cc)`

A simplex of dimension `dim - codim` has `dim - codim + 1` vertices; its sub-entities of codimension `cc`
(relative to the grid) are its faces of dimension `dim - cc`, that is the subsets of `dim - cc + 1` vertices.
-/

namespace Verif.SubEntities

/-- The faces with `k` vertices of a simplex with `n` vertices. -/
def faces (n k : Nat) : Finset (Finset (Fin n)) := (Finset.univ : Finset (Fin n)).powersetCard k

theorem divLoop (m : Nat) (a : Nat) :
    (List.range m).foldl (fun (b : Int) (j : Nat) => Int.tdiv b (2 + j)) (a : Int) = ((a / (m + 1).factorial : Nat) : Int) := by
  induction m with
  | zero => simp
  | succ m ih =>
    rw [List.range_succ, List.foldl_append, ih]
    simp only [List.foldl_cons, List.foldl_nil]
    have : (2 + (m : Int)) = ((m + 2 : Nat) : Int) := by push_cast; ring
    rw [this, ← Int.ofNat_tdiv, Nat.div_div_eq_div_mul, Nat.factorial_succ (m + 1), Nat.mul_comm]

theorem mulLoop (m : Nat) (a : Int) :
    (List.range m).foldl (fun (b : Int) (j : Nat) => b * (a + j)) 1 = ∏ j ∈ Finset.range m, (a + j) := by
  induction m with
  | zero => simp
  | succ m ih => rw [List.range_succ, List.foldl_append, ih, Finset.prod_range_succ]; simp

theorem binomialLoop_eq (n k : Nat) : binomialLoop n k = ((n.choose k : Nat) : Int) := by
  unfold binomialLoop
  have e1 : ((n : Int) - ((n : Int) - k + 1) + 1).toNat = k := by omega
  simp only [e1]
  rw [mulLoop]
  by_cases hkn : k ≤ n
  · have hp : ∏ j ∈ Finset.range k, ((n : Int) - k + 1 + j) = (((n - k + 1).ascFactorial k : Nat) : Int) := by
      rw [Nat.ascFactorial_eq_prod_range, Nat.cast_prod]
      refine Finset.prod_congr rfl fun j _ => ?_
      push_cast [Nat.cast_sub hkn]; ring
    rw [hp, Nat.ascFactorial_eq_factorial_mul_choose, Nat.sub_add_cancel hkn]
    rcases k with _ | k
    · simp
    · have e2 : ((k + 1 : Nat) - 2 + 1 : Int).toNat = k := by omega
      rw [e2, divLoop, Nat.mul_div_cancel_left _ (Nat.factorial_pos _)]
  · have hz : ∏ j ∈ Finset.range k, ((n : Int) - k + 1 + j) = 0 := by
      apply Finset.prod_eq_zero (i := k - 1 - n)
      · simp; omega
      · omega
    rw [hz, Nat.choose_eq_zero_of_lt (by omega)]
    have := divLoop ((k : Int) - 2 + 1).toNat 0
    simpa using this

/-- **C12** Bulk entities of codimension `codim`: the number of faces, for all dimensions and codimensions. -/
theorem C12_bulk (dim codim cc : Nat) (h : codim ≤ dim) (hc : cc ≤ dim) :
    bulkSubEntities dim codim cc = (faces (dim - codim + 1) (dim - cc + 1)).card := by
  unfold bulkSubEntities faces
  have e1 : ((dim : Int) - codim + 1) = ((dim - codim + 1 : Nat) : Int) := by omega
  have e2 : ((dim : Int) - cc + 1) = ((dim - cc + 1 : Nat) : Int) := by omega
  rw [e1, e2, binomialLoop_eq, Finset.card_powersetCard, Finset.card_univ, Fintype.card_fin]

/-- **C12** Caching entities of the bulk and the interface grid. -/
theorem C12_caching (dim cc : Nat) (hc : cc ≤ dim) :
    cachingSubEntities dim cc = (faces (dim + 1) (dim - cc + 1)).card := by
  unfold cachingSubEntities faces
  have e1 : ((dim : Int) + 1) = ((dim + 1 : Nat) : Int) := by omega
  have e2 : ((dim : Int) - cc + 1) = ((dim - cc + 1 : Nat) : Int) := by omega
  rw [e1, e2, binomialLoop_eq, Finset.card_powersetCard, Finset.card_univ, Fintype.card_fin]

/-- **C12** Interface elements of both dimensions that exist. -/
theorem C12_interface_element (dim cc : Nat) (hd : dim = 1 ∨ dim = 2) (hc : cc ≤ dim) :
    interfaceElementSubEntities dim cc = some ((faces (dim + 1) (dim - cc + 1)).card : Int) := by
  unfold faces
  rw [Finset.card_powersetCard, Finset.card_univ, Fintype.card_fin]
  rcases hd with rfl | rfl
  · interval_cases cc <;> rfl
  · interval_cases cc <;> rfl

/-- **C101** is false for interface entities of codimension greater than 0: an interface vertex reports two
(2D) or three (3D) vertices instead of one, and an interface edge in 3D reports three vertices instead of two and
three edges instead of one. -/
theorem C101_interface_false :
    interfaceSubEntities 1 1 = some 2 ∧ (faces (1 - 1 + 1) (1 - 1 + 1)).card = 1 ∧
    interfaceSubEntities 2 2 = some 3 ∧ (faces (2 - 2 + 1) (2 - 2 + 1)).card = 1 ∧
    interfaceSubEntities 2 2 = some 3 ∧ (faces (2 - 1 + 1) (2 - 2 + 1)).card = 2 ∧
    interfaceSubEntities 2 1 = some 3 ∧ (faces (2 - 1 + 1) (2 - 1 + 1)).card = 1 := by
  decide

/-- **C101** (part) For interface entities of codimension greater than 0 the answer is right exactly for `cc = 0`
(no sub-entities of larger dimension). Missing: every `cc ≥ codim`, where the code is wrong. -/
theorem C101_interface_partial (dim codim cc : Nat) (hd : dim = 1 ∨ dim = 2) (h0 : 1 ≤ codim) (h : codim ≤ dim)
    (hc : cc ≤ dim) :
    interfaceSubEntities dim cc = some ((faces (dim - codim + 1) (dim - cc + 1)).card : Int) ↔ cc = 0 := by
  unfold faces
  rw [Finset.card_powersetCard, Finset.card_univ, Fintype.card_fin]
  rcases hd with rfl | rfl
  · interval_cases codim <;> interval_cases cc <;> decide
  · interval_cases codim <;> interval_cases cc <;> decide

/-- Non-vacuity: a tetrahedron has six edges; a triangle of a 3D grid has three vertices. -/
example : cachingSubEntities 3 2 = 6 ∧ bulkSubEntities 3 1 3 = 3 ∧ bulkSubEntities 3 2 2 = 1 := by decide

end Verif.SubEntities
