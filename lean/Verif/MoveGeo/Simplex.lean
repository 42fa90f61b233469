import Verif.Refine.Examples
import Mathlib.LinearAlgebra.Matrix.Determinant.Basic
import Mathlib.LinearAlgebra.Matrix.NonsingularInverse
import Mathlib.LinearAlgebra.Alternating.Basic

/-!
# Simplices in any dimension: volumes, barycentric coordinates, and how often a point is covered

`sign p x` is 1 (-1) if `x` is inside the positively (negatively) oriented simplex `p`. For a point `x` in general position it is the sum of the same
numbers for the simplices in which one vertex of `p` is replaced by a fixed point `z` (`sign_cone`): the points of the simplex over `p` and `z` that are mapped to
`x` form a segment, its ends lie on two facets, and they are counted with opposite signs.
-/

namespace Verif.MoveGeo

open Verif.Refine Finset

variable {K : Type*} [Field K] {d : ℕ}

/-- A point with a leading one. -/
def lift (x : Fin d → K) : Fin (d + 1) → K := Fin.cons 1 x

theorem volume_lift (p : Fin (d + 1) → Fin d → K) : signedVolume p = Matrix.detRowAlternating (R := K) (fun i => lift (p i)) := rfl

theorem lift_update (p : Fin (d + 1) → Fin d → K) (i : Fin (d + 1)) (x : Fin d → K) :
    (fun k => lift (Function.update p i x k)) = Function.update (fun k => lift (p k)) i (lift x) := by
  funext k
  by_cases h : k = i
  · subst h; simp
  · simp [Function.update_of_ne h]

theorem lift_sum {α : Type*} (s : Finset α) (w : α → K) (y : α → Fin d → K) (hw : ∑ a ∈ s, w a = 1) : lift (∑ a ∈ s, w a • y a) = ∑ a ∈ s, w a • lift (y a) := by
  funext k
  rw [Finset.sum_apply]
  refine Fin.cases ?_ (fun k => ?_) k
  · simp [lift, hw]
  · simp [lift, Finset.sum_apply]

theorem volume_update_sum {α : Type*} (p : Fin (d + 1) → Fin d → K) (i : Fin (d + 1)) (s : Finset α) (w : α → K) (y : α → Fin d → K)
    (hw : ∑ a ∈ s, w a = 1) : signedVolume (Function.update p i (∑ a ∈ s, w a • y a)) = ∑ a ∈ s, w a * signedVolume (Function.update p i (y a)) := by
  rw [volume_lift, lift_update, lift_sum s w y hw, AlternatingMap.map_update_sum]
  refine Finset.sum_congr rfl fun a _ => ?_
  rw [AlternatingMap.map_update_smul, volume_lift, lift_update, smul_eq_mul]

theorem volume_same {p : Fin (d + 1) → Fin d → K} {i j : Fin (d + 1)} (h : p i = p j) (hij : i ≠ j) : signedVolume p = 0 := by
  rw [volume_lift]
  exact AlternatingMap.map_eq_zero_of_eq _ _ (by simp only [h]) hij

theorem volume_perm (p : Fin (d + 1) → Fin d → K) (σ : Equiv.Perm (Fin (d + 1))) : signedVolume (p ∘ σ) = Equiv.Perm.sign σ • signedVolume p := by
  rw [volume_lift, volume_lift]
  exact AlternatingMap.map_perm _ (fun i => lift (p i)) σ

/-- The volume of the simplex with vertex `i` replaced by a combination of the vertices. -/
theorem volume_combination (p : Fin (d + 1) → Fin d → K) (w : Fin (d + 1) → K) (hw : ∑ i, w i = 1) (i : Fin (d + 1)) :
    signedVolume (Function.update p i (∑ j, w j • p j)) = w i * signedVolume p := by
  rw [volume_update_sum p i univ w p hw, Finset.sum_eq_single i]
  · rw [Function.update_eq_self]
  · intro j _ hj
    rw [volume_same (i := i) (j := j) (by rw [Function.update_self, Function.update_of_ne hj]) (Ne.symm hj), mul_zero]
  · intro h
    exact absurd (mem_univ i) h

/-- The volume depends on a vertex in an affine way. -/
theorem volume_line (p : Fin (d + 1) → Fin d → K) (i : Fin (d + 1)) (x m : Fin d → K) (t : K) :
    signedVolume (Function.update p i (x + t • (m - x))) =
      signedVolume (Function.update p i x) + t * (signedVolume (Function.update p i m) - signedVolume (Function.update p i x)) := by
  have := volume_update_sum p i (univ : Finset (Fin 2)) ![1 - t, t] ![x, m] (by simp)
  simp only [Fin.sum_univ_two, Matrix.cons_val_zero, Matrix.cons_val_one] at this
  rw [show x + t • (m - x) = (1 - t) • x + t • m by module, this]
  ring

/-- Every point has barycentric coordinates in a simplex that is not degenerate. -/
theorem exists_weights {p : Fin (d + 1) → Fin d → K} (h : signedVolume p ≠ 0) (x : Fin d → K) :
    ∃ w : Fin (d + 1) → K, ∑ i, w i = 1 ∧ ∑ i, w i • p i = x := by
  let A : Matrix (Fin (d + 1)) (Fin (d + 1)) K := Matrix.of fun i => lift (p i)
  have hA : IsUnit A.det := isUnit_iff_ne_zero.2 h
  have hv : Matrix.vecMul (Matrix.vecMul (lift x) A⁻¹) A = lift x := by
    rw [Matrix.vecMul_vecMul, Matrix.nonsing_inv_mul _ hA, Matrix.vecMul_one]
  refine ⟨Matrix.vecMul (lift x) A⁻¹, ?_, ?_⟩
  · have := congrFun hv 0
    simp only [Matrix.vecMul, dotProduct, A, Matrix.of_apply, lift, Fin.cons_zero, mul_one] at this
    exact this
  · funext k
    have := congrFun hv k.succ
    rw [Finset.sum_apply]
    exact this

/-- Two vertices replaced. -/
theorem volume_two (p : Fin (d + 1) → Fin d → K) {ζ ξ : Fin (d + 1) → K} (hζ : ∑ i, ζ i = 1) (hξ : ∑ i, ξ i = 1) {i j : Fin (d + 1)} (hij : i ≠ j) :
    signedVolume (Function.update (Function.update p i (∑ k, ζ k • p k)) j (∑ k, ξ k • p k)) = (ζ i * ξ j - ξ i * ζ j) * signedVolume p := by
  rw [volume_update_sum _ j univ ξ p hξ, ← Finset.add_sum_erase _ _ (mem_univ j), ← Finset.add_sum_erase _ _ (Finset.mem_erase.2 ⟨hij, mem_univ i⟩),
    Finset.sum_eq_zero (s := (univ.erase j).erase i)]
  · have e1 : Function.update (Function.update p i (∑ k, ζ k • p k)) j (p j) = Function.update p i (∑ k, ζ k • p k) := by
      funext k
      by_cases hk : k = j
      · subst hk; rw [Function.update_self, Function.update_of_ne (Ne.symm hij)]
      · rw [Function.update_of_ne hk]
    have e2 : Function.update (Function.update p i (∑ k, ζ k • p k)) j (p i) = Function.update p j (∑ k, ζ k • p k) ∘ Equiv.swap i j := by
      funext k
      by_cases hk : k = j
      · subst hk; simp [Function.update_of_ne hij]
      · by_cases hk' : k = i
        · subst hk'; simp [Function.update_of_ne hij]
        · simp [Function.update_of_ne hk, Function.update_of_ne hk', Equiv.swap_apply_of_ne_of_ne hk' hk]
    rw [e1, e2, volume_perm, Equiv.Perm.sign_swap hij, volume_combination p ζ hζ, volume_combination p ζ hζ]
    simp only [Units.neg_smul, one_smul]
    ring
  · intro k hk
    rw [Finset.mem_erase, Finset.mem_erase] at hk
    rw [volume_same (i := j) (j := k) ?_ (Ne.symm hk.2.1), mul_zero]
    rw [Function.update_self, Function.update_of_ne hk.2.1, Function.update_of_ne hk.1]

variable [LinearOrder K] [IsStrictOrderedRing K]

/-- 1 or -1 for a point inside the simplex, by its orientation; 0 otherwise. -/
def sign (p : Fin (d + 1) → Fin d → K) (x : Fin d → K) : ℤ :=
  if ∀ i, 0 < signedVolume (Function.update p i x) then 1 else if ∀ i, signedVolume (Function.update p i x) < 0 then -1 else 0

theorem sign_perm (p : Fin (d + 1) → Fin d → K) (σ : Equiv.Perm (Fin (d + 1))) (x : Fin d → K) : sign (p ∘ σ) x = Equiv.Perm.sign σ * sign p x := by
  have e : ∀ i, signedVolume (Function.update (p ∘ σ) i x) = Equiv.Perm.sign σ • signedVolume (Function.update p (σ i) x) := by
    intro i
    rw [← volume_perm]
    congr 1
    funext k
    by_cases h : k = i
    · subst h; simp
    · simp [Function.update_of_ne h, Function.update_of_ne (fun h' => h (σ.injective h'))]
  have all : ∀ P : Fin (d + 1) → Prop, (∀ i, P (σ i)) ↔ ∀ i, P i := fun P => ⟨fun h i => by simpa using h (σ.symm i), fun h i => h _⟩
  have a1 : (∀ i, 0 < signedVolume (Function.update p (σ i) x)) ↔ ∀ i, 0 < signedVolume (Function.update p i x) :=
    all fun i => 0 < signedVolume (Function.update p i x)
  have a2 : (∀ i, signedVolume (Function.update p (σ i) x) < 0) ↔ ∀ i, signedVolume (Function.update p i x) < 0 :=
    all fun i => signedVolume (Function.update p i x) < 0
  have no : ¬ ((∀ i, 0 < signedVolume (Function.update p i x)) ∧ ∀ i, signedVolume (Function.update p i x) < 0) := fun h => lt_asymm (h.1 0) (h.2 0)
  unfold sign
  simp only [e]
  rcases Int.units_eq_one_or (Equiv.Perm.sign σ) with hs | hs <;> rw [hs]
  · simp only [one_smul, Units.val_one, one_mul]
    simp only [a1, a2]
  · simp only [Units.neg_smul, one_smul, Left.neg_neg_iff, Left.neg_pos_iff]
    simp only [a1, a2]
    by_cases h1 : ∀ i, 0 < signedVolume (Function.update p i x) <;> by_cases h2 : ∀ i, signedVolume (Function.update p i x) < 0
    · exact absurd ⟨h1, h2⟩ no
    · rw [if_neg h2, if_pos h1, if_pos h1]; simp
    · rw [if_pos h2, if_neg h1, if_pos h2]; simp
    · rw [if_neg h2, if_neg h1, if_neg h1, if_neg h2]; simp

/-! ## The ends of a segment -/

section Ends

variable {n : ℕ} {ξ ζ : Fin n → K}

/-- `x` with coordinates `ξ` is in the simplex in which vertex `i` is replaced by the point with coordinates `ζ`. -/
def Upper (ξ ζ : Fin n → K) (i : Fin n) : Prop := 0 < ξ i ∧ ∀ j, j ≠ i → 0 < ζ i * ξ j - ξ i * ζ j

/-- The same with the other orientation. -/
def Lower (ξ ζ : Fin n → K) (i : Fin n) : Prop := ξ i < 0 ∧ ∀ j, j ≠ i → ζ i * ξ j - ξ i * ζ j < 0

theorem Upper.unique {i j : Fin n} (hi : Upper ξ ζ i) (hj : Upper ξ ζ j) : i = j := by
  by_contra h
  have := hi.2 j (Ne.symm h)
  have := hj.2 i h
  linarith

theorem Lower.unique {i j : Fin n} (hi : Lower ξ ζ i) (hj : Lower ξ ζ j) : i = j := by
  by_contra h
  have := hi.2 j (Ne.symm h)
  have := hj.2 i h
  linarith

omit [LinearOrder K] [IsStrictOrderedRing K] in
theorem sum_cross (hξ : ∑ i, ξ i = 1) (hζ : ∑ i, ζ i = 1) (i : Fin n) : ∑ j, (ζ i * ξ j - ξ i * ζ j) = ζ i - ξ i := by
  rw [Finset.sum_sub_distrib, ← Finset.mul_sum, ← Finset.mul_sum, hξ, hζ, mul_one, mul_one]

theorem Upper.zeta (hξ : ∑ i, ξ i = 1) (hζ : ∑ i, ζ i = 1) {i : Fin n} (hi : Upper ξ ζ i) : 0 < ζ i := by
  have : 0 ≤ ζ i - ξ i := by
    rw [← sum_cross hξ hζ i]
    refine Finset.sum_nonneg fun j _ => ?_
    by_cases h : j = i
    · subst h; linarith [mul_comm (ζ j) (ξ j)]
    · exact (hi.2 j h).le
  linarith [hi.1]

theorem Lower.zeta (hξ : ∑ i, ξ i = 1) (hζ : ∑ i, ζ i = 1) {i : Fin n} (hi : Lower ξ ζ i) : ζ i < 0 := by
  have : ζ i - ξ i ≤ 0 := by
    rw [← sum_cross hξ hζ i]
    refine Finset.sum_nonpos fun j _ => ?_
    by_cases h : j = i
    · subst h; linarith [mul_comm (ζ j) (ξ j)]
    · exact (hi.2 j h).le
  linarith [hi.1]

variable (hξ : ∑ i, ξ i = 1) (hζ : ∑ i, ζ i = 1) (h0 : ∀ i, ξ i ≠ 0) (h1 : ∀ i j, i ≠ j → ζ i * ξ j - ξ i * ζ j ≠ 0)

include hζ h1 in
/-- The index where the segment ends, among those with positive `ζ`. -/
theorem exists_least : ∃ m, 0 < ζ m ∧ ∀ j, j ≠ m → 0 < ζ j → 0 < ζ m * ξ j - ξ m * ζ j := by
  have hne : (univ.filter fun i => 0 < ζ i).Nonempty := by
    by_contra h
    rw [Finset.not_nonempty_iff_eq_empty, Finset.filter_eq_empty_iff] at h
    have : ∑ i, ζ i ≤ 0 := Finset.sum_nonpos fun i hi => not_lt.1 (h hi)
    linarith
  obtain ⟨m, hm, hmin⟩ := Finset.exists_min_image _ (fun i => ξ i / ζ i) hne
  rw [Finset.mem_filter] at hm
  refine ⟨m, hm.2, fun j hj hζj => ?_⟩
  have := hmin j (Finset.mem_filter.2 ⟨mem_univ j, hζj⟩)
  rw [div_le_div_iff₀ hm.2 hζj] at this
  have h2 := h1 m j (Ne.symm hj)
  have h3 : 0 ≤ ζ m * ξ j - ξ m * ζ j := by linarith [mul_comm (ζ m) (ξ j)]
  exact lt_of_le_of_ne h3 (Ne.symm h2)

include hζ h1 in
theorem upper_of_pos (hpos : ∀ i, 0 < ξ i) : ∃ i, Upper ξ ζ i := by
  obtain ⟨m, hm, h⟩ := exists_least hζ h1
  refine ⟨m, hpos m, fun j hj => ?_⟩
  rcases lt_or_ge 0 (ζ j) with hj' | hj'
  · exact h j hj hj'
  · have a := mul_pos hm (hpos j)
    have b := mul_nonneg (hpos m).le (neg_nonneg.2 hj')
    linarith [mul_neg (ξ m) (ζ j)]

include hξ hζ h0 h1 in
theorem lower_of_upper {i : Fin n} (hi : Upper ξ ζ i) (hneg : ¬ ∀ i, 0 < ξ i) : ∃ k, Lower ξ ζ k := by
  have hζi := hi.zeta hξ hζ
  have hne : (univ.filter fun i => ξ i < 0).Nonempty := by
    by_contra h
    rw [Finset.not_nonempty_iff_eq_empty, Finset.filter_eq_empty_iff] at h
    exact hneg fun i => lt_of_le_of_ne (not_lt.1 (h (mem_univ i))) (Ne.symm (h0 i))
  have hJ : ∀ j, ξ j < 0 → ζ j < 0 ∧ ξ i * ζ j < ζ i * ξ j := by
    intro j hj
    have hji : j ≠ i := by rintro rfl; exact lt_asymm hj hi.1
    have h2 := hi.2 j hji
    have h3 : ζ i * ξ j < 0 := mul_neg_of_pos_of_neg hζi hj
    refine ⟨?_, by linarith⟩
    by_contra h
    have := mul_nonneg hi.1.le (not_lt.1 h)
    linarith
  obtain ⟨k, hk, hmax⟩ := Finset.exists_max_image _ (fun i => ξ i / ζ i) hne
  rw [Finset.mem_filter] at hk
  have hξk := hk.2
  obtain ⟨hζk, hik⟩ := hJ k hξk
  refine ⟨k, hξk, fun j hj => ?_⟩
  rcases lt_or_gt_of_ne (h0 j) with hξj | hξj
  · have h2 := hmax j (Finset.mem_filter.2 ⟨mem_univ j, hξj⟩)
    obtain ⟨hζj, -⟩ := hJ j hξj
    have h3 : ζ k * ξ j - ξ k * ζ j ≤ 0 := by
      have hp : 0 < ζ j * ζ k := mul_pos_of_neg_of_neg hζj hζk
      have e1 : ξ j / ζ j * (ζ j * ζ k) = ξ j * ζ k := by rw [← mul_assoc, div_mul_cancel₀ _ hζj.ne]
      have e2 : ξ k / ζ k * (ζ j * ζ k) = ξ k * ζ j := by rw [mul_comm (ζ j), ← mul_assoc, div_mul_cancel₀ _ hζk.ne]
      have := mul_le_mul_of_nonneg_right h2 hp.le
      rw [e1, e2] at this
      linarith [mul_comm (ζ k) (ξ j)]
    exact lt_of_le_of_ne h3 (h1 k j (Ne.symm hj))
  · rcases le_or_gt (ζ j) 0 with hζj | hζj
    · have a := mul_neg_of_neg_of_pos hζk hξj
      have b := mul_nonneg_of_nonpos_of_nonpos hξk.le hζj
      linarith
    · -- `ξ j ≥ (ξ i / ζ i) ζ j` and `ξ k / ζ k < ξ i / ζ i`
      have a : ξ i * ζ j ≤ ζ i * ξ j := by
        by_cases hji : j = i
        · subst hji; exact (mul_comm _ _).le
        · linarith [hi.2 j hji]
      -- multiply by `-ζ k` and `ζ j`
      have b := mul_le_mul_of_nonneg_right a (neg_nonneg.2 hζk.le)
      have c := mul_lt_mul_of_pos_right hik hζj
      have d : ζ i * (ζ k * ξ j - ξ k * ζ j) < 0 := by nlinarith
      by_contra h
      have := mul_nonneg hζi.le (not_lt.1 h)
      linarith

include hξ hζ h1 in
theorem upper_of_lower {k : Fin n} (hk : Lower ξ ζ k) : ∃ i, Upper ξ ζ i := by
  have hζk := hk.zeta hξ hζ
  obtain ⟨m, hm, h⟩ := exists_least hζ h1
  have hmk : m ≠ k := by rintro rfl; exact lt_asymm hm hζk
  have hkm := hk.2 m hmk
  have hξm : 0 < ξ m := by
    by_contra hno
    have a := mul_nonneg_of_nonpos_of_nonpos hζk.le (not_lt.1 hno)
    have b := mul_neg_of_neg_of_pos hk.1 hm
    linarith
  refine ⟨m, hξm, fun j hj => ?_⟩
  rcases lt_trichotomy (ζ j) 0 with hζj | hζj | hζj
  · -- `ξ j ≥ (ξ k / ζ k) ζ j`, and `ξ m / ζ m > ξ k / ζ k`
    have a : ζ k * ξ j - ξ k * ζ j ≤ 0 := by
      by_cases hjk : j = k
      · subst hjk; linarith [mul_comm (ζ j) (ξ j)]
      · exact (hk.2 j hjk).le
    have b := mul_le_mul_of_nonneg_right a hm.le
    have c := mul_pos_of_neg_of_neg hkm hζj
    have e : ζ k * (ζ m * ξ j - ξ m * ζ j) < 0 := by nlinarith
    by_contra hno
    have := mul_nonneg_of_nonpos_of_nonpos hζk.le (not_lt.1 hno)
    linarith
  · have hjk : j ≠ k := by rintro rfl; rw [hζj] at hζk; exact lt_irrefl _ hζk
    have a := hk.2 j hjk
    rw [hζj] at a ⊢
    have hξj : 0 < ξ j := by
      by_contra hno
      have := mul_nonneg_of_nonpos_of_nonpos hζk.le (not_lt.1 hno)
      linarith
    have := mul_pos hm hξj
    linarith
  · exact h j hj hζj

open Classical in
include hξ hζ h0 h1 in
/-- The ends cancel unless the segment begins in the simplex itself. -/
theorem sum_ends : ∑ i, (if Upper ξ ζ i then (1 : ℤ) else if Lower ξ ζ i then -1 else 0) = if ∀ i, 0 < ξ i then 1 else 0 := by
  have hdis : ∀ i, Upper ξ ζ i → ¬ Lower ξ ζ i := fun i h h' => lt_asymm h.1 h'.1
  have e : ∀ i, (if Upper ξ ζ i then (1 : ℤ) else if Lower ξ ζ i then -1 else 0) = (if Upper ξ ζ i then 1 else 0) - (if Lower ξ ζ i then 1 else 0) := by
    intro i
    by_cases hu : Upper ξ ζ i
    · rw [if_pos hu, if_pos hu, if_neg (hdis i hu), sub_zero]
    · rw [if_neg hu, if_neg hu]
      by_cases hl : Lower ξ ζ i
      · rw [if_pos hl, if_pos hl, zero_sub]
      · rw [if_neg hl, if_neg hl, zero_sub, neg_zero]
  have one : ∀ P : Fin n → Prop, (∀ i j, P i → P j → i = j) → ∑ i, (if P i then (1 : ℤ) else 0) = if ∃ i, P i then 1 else 0 := by
    intro P hP
    by_cases hex : ∃ i, P i
    · obtain ⟨i, hi⟩ := hex
      rw [if_pos ⟨i, hi⟩, Finset.sum_eq_single i, if_pos hi]
      · intro j _ hj
        exact if_neg fun h => hj (hP j i h hi)
      · intro h
        exact absurd (mem_univ i) h
    · rw [if_neg hex]
      exact Finset.sum_eq_zero fun i _ => if_neg fun h => hex ⟨i, h⟩
  rw [Finset.sum_congr rfl fun i _ => e i, Finset.sum_sub_distrib, one _ fun i j => Upper.unique, one _ fun i j => Lower.unique]
  by_cases hp : ∀ i, 0 < ξ i
  · rw [if_pos hp, if_pos (upper_of_pos hζ h1 hp), if_neg, sub_zero]
    rintro ⟨k, hk⟩
    exact lt_asymm hk.1 (hp k)
  · rw [if_neg hp]
    by_cases hu : ∃ i, Upper ξ ζ i
    · obtain ⟨i, hi⟩ := hu
      rw [if_pos ⟨i, hi⟩, if_pos (lower_of_upper hξ hζ h0 h1 hi hp), sub_self]
    · rw [if_neg hu, if_neg, sub_zero]
      rintro ⟨k, hk⟩
      exact hu (upper_of_lower hξ hζ h1 hk)

end Ends

/-- The point is on no facet of the simplices over `p` and `z`. -/
def General (p : Fin (d + 1) → Fin d → K) (z x : Fin d → K) : Prop :=
  (∀ i, signedVolume (Function.update p i x) ≠ 0) ∧ ∀ i j, i ≠ j → signedVolume (Function.update (Function.update p i z) j x) ≠ 0

theorem sign_cone {p : Fin (d + 1) → Fin d → K} (hp : 0 < signedVolume p) {z x : Fin d → K} (hg : General p z x) :
    sign p x = ∑ i, sign (Function.update p i z) x := by
  classical
  obtain ⟨ζ, hζ, rfl⟩ := exists_weights hp.ne' z
  obtain ⟨ξ, hξ, rfl⟩ := exists_weights hp.ne' x
  have e1 : ∀ i, signedVolume (Function.update p i (∑ k, ξ k • p k)) = ξ i * signedVolume p := volume_combination p ξ hξ
  have e2 : ∀ i j, i ≠ j → signedVolume (Function.update (Function.update p i (∑ k, ζ k • p k)) j (∑ k, ξ k • p k)) =
      (ζ i * ξ j - ξ i * ζ j) * signedVolume p := fun i j hij => volume_two p hζ hξ hij
  have e3 : ∀ i, Function.update (Function.update p i (∑ k, ζ k • p k)) i (∑ k, ξ k • p k) = Function.update p i (∑ k, ξ k • p k) :=
    fun i => Function.update_idem _ _ _
  have h0 : ∀ i, ξ i ≠ 0 := by
    intro i h
    apply hg.1 i
    rw [e1, h, zero_mul]
  have h1 : ∀ i j, i ≠ j → ζ i * ξ j - ξ i * ζ j ≠ 0 := by
    intro i j hij h
    apply hg.2 i j hij
    rw [e2 i j hij, h, zero_mul]
  have s1 : sign p (∑ k, ξ k • p k) = if ∀ i, 0 < ξ i then 1 else 0 := by
    unfold sign
    simp only [e1, mul_pos_iff_of_pos_right hp]
    by_cases hpos : ∀ i, 0 < ξ i
    · rw [if_pos hpos, if_pos hpos]
    · rw [if_neg hpos, if_neg hpos, if_neg]
      intro h
      have : ∑ i, ξ i ≤ 0 := Finset.sum_nonpos fun i _ => by
        by_contra hno
        exact lt_asymm (h i) (mul_pos (not_le.1 hno) hp)
      linarith
  have s2 : ∀ i, sign (Function.update p i (∑ k, ζ k • p k)) (∑ k, ξ k • p k) = if Upper ξ ζ i then (1 : ℤ) else if Lower ξ ζ i then -1 else 0 := by
    intro i
    have v : ∀ j, signedVolume (Function.update (Function.update p i (∑ k, ζ k • p k)) j (∑ k, ξ k • p k)) =
        (if j = i then ξ i else ζ i * ξ j - ξ i * ζ j) * signedVolume p := by
      intro j
      by_cases h : j = i
      · subst h; rw [if_pos rfl, e3, e1]
      · rw [if_neg h, e2 i j (Ne.symm h)]
    have u : (∀ j, 0 < signedVolume (Function.update (Function.update p i (∑ k, ζ k • p k)) j (∑ k, ξ k • p k))) ↔ Upper ξ ζ i := by
      simp only [v, mul_pos_iff_of_pos_right hp]
      constructor
      · intro h
        refine ⟨by simpa using h i, fun j hj => by simpa [hj] using h j⟩
      · intro h j
        by_cases hj : j = i
        · rw [if_pos hj]; exact h.1
        · rw [if_neg hj]; exact h.2 j hj
    have l : (∀ j, signedVolume (Function.update (Function.update p i (∑ k, ζ k • p k)) j (∑ k, ξ k • p k)) < 0) ↔ Lower ξ ζ i := by
      have hn : ∀ a : K, a * signedVolume p < 0 ↔ a < 0 := fun a => ⟨fun h => by by_contra hno; exact lt_irrefl _ (lt_of_lt_of_le h (mul_nonneg (not_lt.1 hno) hp.le)), fun h => mul_neg_of_neg_of_pos h hp⟩
      simp only [v, hn]
      constructor
      · intro h
        refine ⟨by simpa using h i, fun j hj => by simpa [hj] using h j⟩
      · intro h j
        by_cases hj : j = i
        · rw [if_pos hj]; exact h.1
        · rw [if_neg hj]; exact h.2 j hj
    unfold sign
    simp only [u, l]
  rw [s1, Finset.sum_congr rfl fun i _ => s2 i, sum_ends hξ hζ h0 h1]

/-! ## Inside and outside -/

theorem closed_iff {p : Fin (d + 1) → Fin d → K} (h : 0 < signedVolume p) {x : Fin d → K} :
    x ∈ convexHull K (Set.range p) ↔ ∀ i, 0 ≤ signedVolume (Function.update p i x) := by
  constructor
  · intro hx
    rw [convexHull_range_eq_exists_affineCombination] at hx
    obtain ⟨s, w, h0, h1, rfl⟩ := hx
    rw [affineCombination_eq_linear_combination _ _ _ h1]
    intro i
    rw [volume_update_sum p i s w p h1]
    refine Finset.sum_nonneg fun j hj => mul_nonneg (h0 j hj) ?_
    by_cases hji : j = i
    · subst hji; rw [Function.update_eq_self]; exact h.le
    · rw [volume_same (i := i) (j := j) (by rw [Function.update_self, Function.update_of_ne hji]) (Ne.symm hji)]
  · intro hv
    obtain ⟨w, hw, rfl⟩ := exists_weights h.ne' x
    refine (convex_convexHull K _).sum_mem (fun i _ => ?_) hw fun i _ => subset_convexHull K _ ⟨i, rfl⟩
    have := hv i
    rw [volume_combination p w hw] at this
    exact nonneg_of_mul_nonneg_left this h

theorem open_iff {p : Fin (d + 1) → Fin d → K} (h : 0 < signedVolume p) {x : Fin d → K} :
    (∃ w : Fin (d + 1) → K, (∀ i, 0 < w i) ∧ ∑ i, w i = 1 ∧ ∑ i, w i • p i = x) ↔ ∀ i, 0 < signedVolume (Function.update p i x) := by
  constructor
  · rintro ⟨w, h0, h1, rfl⟩ i
    rw [volume_combination p w h1]
    exact mul_pos (h0 i) h
  · intro hv
    obtain ⟨w, hw, rfl⟩ := exists_weights h.ne' x
    refine ⟨w, fun i => ?_, hw, rfl⟩
    have := hv i
    rw [volume_combination p w hw] at this
    exact pos_of_mul_pos_left this h.le

theorem sign_of_pos {p : Fin (d + 1) → Fin d → K} (h : 0 < signedVolume p) (x : Fin d → K) :
    sign p x = if ∀ i, 0 < signedVolume (Function.update p i x) then 1 else 0 := by
  unfold sign
  by_cases hpos : ∀ i, 0 < signedVolume (Function.update p i x)
  · rw [if_pos hpos, if_pos hpos]
  · rw [if_neg hpos, if_neg hpos, if_neg]
    intro hneg
    obtain ⟨w, hw, rfl⟩ := exists_weights h.ne' x
    have : ∑ i, w i ≤ 0 := Finset.sum_nonpos fun i _ => by
      have := hneg i
      rw [volume_combination p w hw] at this
      by_contra hno
      exact lt_asymm this (mul_pos (not_le.1 hno) h)
    linarith

/-! ## Points in general position -/

theorem small_step (P : List (K × K)) (h : ∀ a ∈ P, 0 < a.1) : ∃ t : K, 0 < t ∧ t ≤ 1 ∧ ∀ s, 0 < s → s ≤ t → ∀ a ∈ P, 0 < a.1 + s * a.2 := by
  induction P with
  | nil => exact ⟨1, one_pos, le_refl _, by simp⟩
  | cons a P ih =>
    obtain ⟨t, h0, h1, ht⟩ := ih fun b hb => h b (by simp [hb])
    have ha := h a (by simp)
    have hB : 0 < 2 * (1 + |a.2|) := by positivity
    refine ⟨min t (a.1 / (2 * (1 + |a.2|))), lt_min h0 (div_pos ha hB), (min_le_left _ _).trans h1, fun s hs hst b hb => ?_⟩
    rw [List.mem_cons] at hb
    rcases hb with rfl | hb
    · have h2 : s * (2 * (1 + |b.2|)) ≤ b.1 := (le_div_iff₀ hB).1 (hst.trans (min_le_right _ _))
      have h3 : -|b.2| ≤ b.2 := neg_abs_le _
      have h4 : s * -|b.2| ≤ s * b.2 := mul_le_mul_of_nonneg_left h3 hs.le
      have h5 : 0 ≤ s * |b.2| := mul_nonneg hs.le (abs_nonneg _)
      have : s * (2 * (1 + |b.2|)) = 2 * s + 2 * (s * |b.2|) := by ring
      have h6 : s * -|b.2| = -(s * |b.2|) := by ring
      linarith
    · exact ht s hs (hst.trans (min_le_left _ _)) b hb

/-- Affine functions. -/
def Affine (f : (Fin d → K) → K) : Prop := ∀ x m t, f (x + t • (m - x)) = f x + t * (f m - f x)

omit [LinearOrder K] [IsStrictOrderedRing K] in
theorem affine_volume (p : Fin (d + 1) → Fin d → K) (i : Fin (d + 1)) : Affine fun x => signedVolume (Function.update p i x) :=
  fun x m t => volume_line p i x m t

omit [LinearOrder K] [IsStrictOrderedRing K] in
theorem Affine.neg {f : (Fin d → K) → K} (hf : Affine f) : Affine fun x => - f x := by
  intro x m t
  simp only
  rw [hf x m t]
  ring

/-- Near a point there are points where none of finitely many affine functions that are not zero vanishes. -/
theorem exists_general (L : List ((Fin d → K) → K)) (hL : ∀ f ∈ L, Affine f ∧ ∃ m, f m ≠ 0) :
    ∀ (P : List ((Fin d → K) → K)) (x : Fin d → K), (∀ f ∈ P, Affine f ∧ 0 < f x) → ∃ y, (∀ f ∈ P, 0 < f y) ∧ ∀ f ∈ L, f y ≠ 0 := by
  induction L with
  | nil => exact fun P x h => ⟨x, fun f hf => (h f hf).2, by simp⟩
  | cons f L ih =>
    intro P x hP
    obtain ⟨hf, m, hm⟩ := hL f (by simp)
    obtain ⟨x1, hx1, hf1⟩ : ∃ x1, (∀ g ∈ P, 0 < g x1) ∧ f x1 ≠ 0 := by
      by_cases h0 : f x = 0
      · obtain ⟨t, ht, -, hs⟩ := small_step (P.map fun g => (g x, g m - g x)) (by
          intro a ha
          obtain ⟨g, hg, rfl⟩ := List.mem_map.1 ha
          exact (hP g hg).2)
        refine ⟨x + t • (m - x), fun g hg => ?_, ?_⟩
        · rw [(hP g hg).1]
          exact hs t ht (le_refl _) _ (List.mem_map.2 ⟨g, hg, rfl⟩)
        · rw [hf, h0, zero_add, sub_zero]
          exact mul_ne_zero ht.ne' hm
      · exact ⟨x, fun g hg => (hP g hg).2, h0⟩
    have hL' : ∀ g ∈ L, Affine g ∧ ∃ m, g m ≠ 0 := fun g hg => hL g (by simp [hg])
    rcases lt_or_gt_of_ne hf1 with hneg | hpos
    · obtain ⟨y, hy1, hy2⟩ := ih hL' ((fun x => - f x) :: P) x1 (by
        intro g hg
        rw [List.mem_cons] at hg
        rcases hg with rfl | hg
        · exact ⟨hf.neg, by simpa using hneg⟩
        · exact ⟨(hP g hg).1, hx1 g hg⟩)
      refine ⟨y, fun g hg => hy1 g (by simp [hg]), fun g hg => ?_⟩
      rw [List.mem_cons] at hg
      rcases hg with rfl | hg
      · have : 0 < - g y := hy1 (fun x => - g x) (by simp)
        intro h0
        linarith
      · exact hy2 g hg
    · obtain ⟨y, hy1, hy2⟩ := ih hL' (f :: P) x1 (by
        intro g hg
        rw [List.mem_cons] at hg
        rcases hg with rfl | hg
        · exact ⟨hf, hpos⟩
        · exact ⟨(hP g hg).1, hx1 g hg⟩)
      refine ⟨y, fun g hg => hy1 g (by simp [hg]), fun g hg => ?_⟩
      rw [List.mem_cons] at hg
      rcases hg with rfl | hg
      · exact (hy1 g (by simp)).ne'
      · exact hy2 g hg

/-- For finitely many simplices there is a point `z` such that there are points in general position near every point. -/
theorem exists_apex (ps : List (Fin (d + 1) → Fin d → K)) (hps : ∀ p ∈ ps, 0 < signedVolume p) :
    ∃ z, ∀ (P : List ((Fin d → K) → K)) (x : Fin d → K), (∀ f ∈ P, Affine f ∧ 0 < f x) → ∃ y, (∀ f ∈ P, 0 < f y) ∧ ∀ p ∈ ps, General p z y := by
  let L1 : List ((Fin d → K) → K) := ps.flatMap fun p => (List.finRange (d + 1)).map fun i => fun x => signedVolume (Function.update p i x)
  have h1 : ∀ f ∈ L1, Affine f ∧ ∃ m, f m ≠ 0 := by
    intro f hf
    obtain ⟨p, hp, hf⟩ := List.mem_flatMap.1 hf
    obtain ⟨i, -, rfl⟩ := List.mem_map.1 hf
    refine ⟨affine_volume p i, p i, ?_⟩
    simp only [Function.update_eq_self]
    exact (hps p hp).ne'
  obtain ⟨z, -, hz⟩ := exists_general L1 h1 [] 0 (by simp)
  let L2 : List ((Fin d → K) → K) := ps.flatMap fun p => (List.finRange (d + 1)).flatMap fun i => ((List.finRange (d + 1)).filter fun j => j ≠ i).map fun j =>
    fun x => signedVolume (Function.update (Function.update p i z) j x)
  have h2 : ∀ f ∈ L2, Affine f ∧ ∃ m, f m ≠ 0 := by
    intro f hf
    obtain ⟨p, hp, hf⟩ := List.mem_flatMap.1 hf
    obtain ⟨i, -, hf⟩ := List.mem_flatMap.1 hf
    obtain ⟨j, hj, rfl⟩ := List.mem_map.1 hf
    have hji : j ≠ i := by simpa using hj
    refine ⟨affine_volume _ j, p j, ?_⟩
    have e : Function.update (Function.update p i z) j (p j) = Function.update p i z := by
      funext k
      by_cases hk : k = j
      · subst hk; rw [Function.update_self, Function.update_of_ne hji]
      · rw [Function.update_of_ne hk]
    simp only [e]
    exact hz _ (List.mem_flatMap.2 ⟨p, hp, List.mem_map.2 ⟨i, List.mem_finRange i, rfl⟩⟩)
  refine ⟨z, fun P x hP => ?_⟩
  obtain ⟨y, hy, hg⟩ := exists_general (L1 ++ L2) (by
    intro f hf
    rcases List.mem_append.1 hf with h | h
    · exact h1 f h
    · exact h2 f h) P x hP
  refine ⟨y, hy, fun p hp => ⟨fun i => ?_, fun i j hij => ?_⟩⟩
  · exact hg _ (List.mem_append.2 (Or.inl (List.mem_flatMap.2 ⟨p, hp, List.mem_map.2 ⟨i, List.mem_finRange i, rfl⟩⟩)))
  · exact hg _ (List.mem_append.2 (Or.inr (List.mem_flatMap.2 ⟨p, hp, List.mem_flatMap.2 ⟨i, List.mem_finRange i,
      List.mem_map.2 ⟨j, List.mem_filter.2 ⟨List.mem_finRange j, by simpa using Ne.symm hij⟩, rfl⟩⟩⟩)))

end Verif.MoveGeo
