import Mathlib.Tactic.Ring
import Mathlib.Tactic.Linarith
import Mathlib.Tactic.FieldSimp
import Mathlib.Tactic.NormNum
import Mathlib.Tactic.LinearCombination
import Verif.Indicator.Model

/-!
# Auxiliary lemmas about the indicator
-/

namespace Verif.Indicator

theorem fold_spec (lim : ℝ × ℝ) (lens : List ℝ) : ∀ s : Acc,
    let t := lens.foldl (edgeBody lim) s
    (t.coarse > 0 ↔ s.coarse > 0 ∨ ∃ e ∈ lens, e < lim.1) ∧ (t.refine > 0 ↔ s.refine > 0 ∨ ∃ e ∈ lens, lim.2 < e) ∧
    (∀ e ∈ lens, t.minE ≤ e) ∧ t.minE ≤ s.minE ∧ (t.minE = s.minE ∨ t.minE ∈ lens) ∧
    (∀ e ∈ lens, e ≤ t.maxE) ∧ s.maxE ≤ t.maxE ∧ (t.maxE = s.maxE ∨ t.maxE ∈ lens) ∧ t.sumE = s.sumE + lens.sum := by
  induction lens with
  | nil => intro s; simp
  | cons a lens ih =>
    intro s
    obtain ⟨h1, h2, h3, h4, h5, h6, h7, h8, h9⟩ := ih (edgeBody lim s a)
    simp only [List.foldl_cons]
    refine ⟨?_, ?_, ?_, ?_, ?_, ?_, ?_, ?_, ?_⟩
    · rw [h1]
      simp only [edgeBody, List.mem_cons, exists_eq_or_imp]
      by_cases ha : a < lim.1
      · simp [ha]
      · simp [ha]
    · rw [h2]
      simp only [edgeBody, List.mem_cons, exists_eq_or_imp]
      by_cases ha : lim.2 < a
      · simp [ha]
      · simp [ha]
    · intro e he
      rcases List.mem_cons.1 he with rfl | he
      · exact h4.trans (min_le_right _ _)
      · exact h3 e he
    · exact h4.trans (min_le_left _ _)
    · rcases h5 with h5 | h5
      · rw [h5]
        simp only [edgeBody]
        rcases min_choice s.minE a with h | h
        · exact Or.inl h
        · rw [h]; exact Or.inr (by simp)
      · exact Or.inr (List.mem_cons_of_mem _ h5)
    · intro e he
      rcases List.mem_cons.1 he with rfl | he
      · exact (le_max_right _ _).trans h7
      · exact h6 e he
    · exact (le_max_left _ _).trans h7
    · rcases h8 with h8 | h8
      · rw [h8]
        simp only [edgeBody]
        rcases max_choice s.maxE a with h | h
        · exact Or.inl h
        · rw [h]; exact Or.inr (by simp)
      · exact Or.inr (List.mem_cons_of_mem _ h8)
    · rw [h9]
      simp only [edgeBody, List.sum_cons]
      ring

/-- Lengths of edges of a non-degenerate element. -/
def Lengths (lens : List ℝ) : Prop := lens ≠ [] ∧ ∀ e ∈ lens, 0 < e ∧ e < 10 ^ 100

/-- The decision, in terms of the edges. -/
theorem indicate_eq (dim : Nat) (ind : Ind) (distance : ℝ) {lens : List ℝ} (vol outer : ℝ) (h : Lengths lens) :
    indicate dim ind distance lens vol outer =
      if ((∃ e ∈ lens, e < (limits ind distance).1) ∨ (∃ e ∈ lens, ∃ f ∈ lens, 4 * f < e) ∨
          30 < outer / (dim * vol / lens.sum * dim)) ∧ dim ≠ 3 then -1
      else if ∃ e ∈ lens, (limits ind distance).2 < e then 1
      else 0 := by
  obtain ⟨hne, hpos⟩ := h
  obtain ⟨h1, h2, h3, h4, h5, h6, h7, h8, h9⟩ := fold_spec (limits ind distance) lens ⟨0, 0, 10 ^ 100, -(10 ^ 100), 0⟩
  obtain ⟨a, ha⟩ := List.exists_mem_of_ne_nil lens hne
  unfold indicate
  simp only
  generalize lens.foldl (edgeBody (limits ind distance)) ⟨0, 0, 10 ^ 100, -(10 ^ 100), 0⟩ = t at *
  simp only [lt_self_iff_false, gt_iff_lt, false_or, zero_add] at h1 h2 h9
  have hmin : t.minE ∈ lens := by
    rcases h5 with h5 | h5
    · exfalso
      have := h3 a ha
      rw [h5] at this
      exact absurd (hpos a ha).2 (not_lt.2 this)
    · exact h5
  have hmax : t.maxE ∈ lens := by
    rcases h8 with h8 | h8
    · exfalso
      have := h6 a ha
      rw [h8] at this
      have h0 : (0 : ℝ) < 10 ^ 100 := by positivity
      simp only at this
      linarith [(hpos a ha).1]
    · exact h8
  have hratio : t.maxE / t.minE > edgeRatio ↔ ∃ e ∈ lens, ∃ f ∈ lens, 4 * f < e := by
    have hp := (hpos _ hmin).1
    unfold edgeRatio
    rw [gt_iff_lt, lt_div_iff₀ hp]
    constructor
    · intro hlt; exact ⟨_, hmax, _, hmin, hlt⟩
    · rintro ⟨e, he, f, hf, hlt⟩
      have := h3 f hf
      have := h6 e he
      linarith
  rw [h9]
  simp only [h2, radiusRatio, gt_iff_lt]
  have hcond : (0 < (if 30 < outer / (↑dim * vol / lens.sum * ↑dim) then (if edgeRatio < t.maxE / t.minE then t.coarse + 1 else t.coarse) + 1
      else (if edgeRatio < t.maxE / t.minE then t.coarse + 1 else t.coarse))) ↔
      ((∃ e ∈ lens, e < (limits ind distance).1) ∨ (∃ e ∈ lens, ∃ f ∈ lens, 4 * f < e) ∨ 30 < outer / (dim * vol / lens.sum * dim)) := by
    by_cases hr : 30 < outer / (↑dim * vol / lens.sum * ↑dim)
    · simp [hr]
    · rw [if_neg hr]
      by_cases he : edgeRatio < t.maxE / t.minE
      · rw [if_pos he]
        have := hratio.1 he
        constructor
        · intro _; exact Or.inr (Or.inl this)
        · intro _; omega
      · rw [if_neg he, h1]
        have := mt hratio.2 he
        constructor
        · intro h; exact Or.inl h
        · rintro (h | h | h)
          · exact h
          · exact absurd h this
          · exact absurd h hr
  by_cases hc : 0 < (if 30 < outer / (↑dim * vol / lens.sum * ↑dim) then (if edgeRatio < t.maxE / t.minE then t.coarse + 1 else t.coarse) + 1
      else (if edgeRatio < t.maxE / t.minE then t.coarse + 1 else t.coarse))
  · have := hcond.1 hc
    simp only [hc, this, true_and]
  · have := mt hcond.2 hc
    simp only [hc, this, false_and]

theorem edgeLength_nonneg (p q : Point) : 0 ≤ edgeLength p q := Real.sqrt_nonneg _

theorem edgeLength_sq (p q : Point) : edgeLength p q ^ 2 = (p.1 - q.1) ^ 2 + (p.2 - q.2) ^ 2 :=
  Real.sq_sqrt (by positivity)

theorem edgeLength_comm (p q : Point) : edgeLength p q = edgeLength q p := by
  unfold edgeLength; congr 1; ring

theorem edgeLength_pos {p q : Point} (h : p ≠ q) : 0 < edgeLength p q := by
  apply Real.sqrt_pos.2
  by_contra h0
  apply h
  have h1 : (p.1 - q.1) ^ 2 = 0 := by nlinarith [sq_nonneg (p.1 - q.1), sq_nonneg (p.2 - q.2)]
  have h2 : (p.2 - q.2) ^ 2 = 0 := by nlinarith [sq_nonneg (p.1 - q.1), sq_nonneg (p.2 - q.2)]
  ext
  · have := pow_eq_zero_iff (two_ne_zero) |>.1 h1; linarith
  · have := pow_eq_zero_iff (two_ne_zero) |>.1 h2; linarith

end Verif.Indicator
