import Mathlib.LinearAlgebra.Matrix.ToLinearEquiv
import Mathlib.LinearAlgebra.Matrix.Determinant.Basic
import Mathlib.Tactic.Linarith
import Mathlib.Tactic.NormNum
import Mathlib.Tactic.Ring
import Mathlib.Tactic.FinCases
import Verif.Curvature.Model

/-!
# C47: the curvature fit is exact for points of a circle or sphere
-/

namespace Verif.Curvature

open Matrix

variable {d n : ℕ}

/-! ## Specification -/

/-- All points have distance `R` to `c`. -/
def OnSphere (p : Fin n → Fin d → ℝ) (c : Fin d → ℝ) (R : ℝ) : Prop := 0 ≤ R ∧ ∀ i, ∑ j, (p i j - c j) ^ 2 = R ^ 2

/-- All points satisfy the equation `a + v·x = 0`, not all coefficients being zero. -/
def OnHyperplane (p : Fin n → Fin d → ℝ) : Prop := ∃ (a : ℝ) (v : Fin d → ℝ), (a ≠ 0 ∨ v ≠ 0) ∧ ∀ i, a + ∑ j, v j * p i j = 0

/-! ## Proofs -/

theorem ata_eq (p : Fin n → Fin d → ℝ) : ata p = (matA p)ᵀ * matA p := by
  ext i j
  simp [ata, Matrix.mul_apply]

theorem atb_eq (p : Fin n → Fin d → ℝ) : atb p = (matA p)ᵀ *ᵥ vecB p := by
  ext j
  simp [atb, Matrix.mulVec, dotProduct]

theorem matA_mulVec (p : Fin n → Fin d → ℝ) (x : Fin (d + 1) → ℝ) (i : Fin n) :
    (matA p *ᵥ x) i = x 0 + ∑ j : Fin d, p i j * x j.succ := by
  simp [Matrix.mulVec, dotProduct, matA, Fin.sum_univ_succ]

/-- The points determine the coefficients exactly if they are not on a hyperplane. -/
theorem det_eq_zero_iff (p : Fin n → Fin d → ℝ) : (ata p).det = 0 ↔ OnHyperplane p := by
  rw [← Matrix.exists_mulVec_eq_zero_iff]
  constructor
  · rintro ⟨x, hx, h⟩
    have hA : matA p *ᵥ x = 0 := by
      have h1 : (matA p *ᵥ x) ⬝ᵥ (matA p *ᵥ x) = 0 := by
        rw [ata_eq, ← Matrix.mulVec_mulVec] at h
        calc (matA p *ᵥ x) ⬝ᵥ (matA p *ᵥ x) = x ⬝ᵥ ((matA p)ᵀ *ᵥ (matA p *ᵥ x)) := by
              rw [Matrix.dotProduct_mulVec x (matA p)ᵀ, Matrix.vecMul_transpose]
          _ = 0 := by rw [h]; simp
      have h2 := (Finset.sum_eq_zero_iff_of_nonneg (fun i _ => mul_self_nonneg ((matA p *ᵥ x) i))).1 h1
      ext i
      exact mul_self_eq_zero.1 (h2 i (Finset.mem_univ i))
    refine ⟨x 0, fun j => x j.succ, ?_, ?_⟩
    · by_contra hc
      push Not at hc
      apply hx
      ext j
      refine Fin.cases hc.1 (fun j => ?_) j
      exact congrFun hc.2 j
    · intro i
      have := congrFun hA i
      rw [matA_mulVec] at this
      simpa [mul_comm] using this
  · rintro ⟨a, v, h, hp⟩
    refine ⟨Fin.cons a v, ?_, ?_⟩
    · intro h0
      rcases h with h | h
      · exact h (by simpa using congrFun h0 0)
      · apply h
        ext j
        simpa using congrFun h0 j.succ
    · have : matA p *ᵥ (Fin.cons a v : Fin (d + 1) → ℝ) = 0 := by
        ext i
        rw [matA_mulVec]
        simpa [mul_comm] using hp i
      rw [ata_eq, ← Matrix.mulVec_mulVec, this]
      simp

theorem solution_unique (p : Fin n → Fin d → ℝ) (h : (ata p).det ≠ 0) {x : Fin (d + 1) → ℝ} (hx : matA p *ᵥ x = vecB p) :
    solution p = x := by
  unfold solution
  rw [atb_eq, ← hx, Matrix.mulVec_mulVec x, ← ata_eq, Matrix.mulVec_mulVec, Matrix.nonsing_inv_mul _ (isUnit_iff_ne_zero.2 h),
    Matrix.one_mulVec]

/-- C47: if the points lie on a circle or sphere and the determinant exceeds the threshold, radius and center are those of the
circle or sphere. -/
theorem C47_exact (p : Fin n → Fin d → ℝ) {c : Fin d → ℝ} {R : ℝ} (h : OnSphere p c R) (hdet : |(ata p).det| > epsilon) (c₀ : Fin d → ℝ) :
    getRadius p c₀ = (some R, c) := by
  have hd : (ata p).det ≠ 0 := by
    intro h0
    rw [h0, abs_zero] at hdet
    have : (0 : ℝ) < epsilon := by unfold epsilon; positivity
    linarith
  have hsol : solution p = Fin.cons (∑ j, c j ^ 2 - R ^ 2) (fun j => -2 * c j) := by
    apply solution_unique p hd
    ext i
    rw [matA_mulVec]
    simp only [Fin.cons_zero, Fin.cons_succ, vecB]
    have := h.2 i
    have e : ∑ j, (p i j - c j) ^ 2 = ∑ j, p i j ^ 2 + ∑ j, p i j * (-2 * c j) + ∑ j, c j ^ 2 := by
      rw [← Finset.sum_add_distrib, ← Finset.sum_add_distrib]
      exact Finset.sum_congr rfl fun j _ => by ring
    rw [e] at this
    linarith
  unfold getRadius
  rw [if_pos hdet, hsol]
  simp only [Fin.cons_zero, Fin.cons_succ]
  refine Prod.ext ?_ ?_
  · simp only [Option.some.injEq]
    have e : 1 / 4 * ∑ j, (-2 * c j) ^ 2 - (∑ j, c j ^ 2 - R ^ 2) = R ^ 2 := by
      have : ∑ j, (-2 * c j) ^ 2 = 4 * ∑ j, c j ^ 2 := by
        rw [Finset.mul_sum]
        exact Finset.sum_congr rfl fun j _ => by ring
      rw [this]
      ring
    rw [e, abs_of_nonneg (sq_nonneg R), Real.sqrt_sq h.1]
  · ext j
    simp only
    ring

/-- C47: for points on a line (2D) or plane (3D) the radius is infinite, and the center is not set. -/
theorem C47_flat (p : Fin n → Fin d → ℝ) (h : OnHyperplane p) (c₀ : Fin d → ℝ) : getRadius p c₀ = (none, c₀) := by
  unfold getRadius
  rw [(det_eq_zero_iff p).2 h, abs_zero, if_neg]
  have : (0 : ℝ) < epsilon := by unfold epsilon; positivity
  linarith

/-- C47: points that are not on a line or plane lie on at most one circle or sphere (so they determine it). -/
theorem C47_determined (p : Fin n → Fin d → ℝ) (h : ¬ OnHyperplane p) {c c' : Fin d → ℝ} {R R' : ℝ} (h1 : OnSphere p c R) (h2 : OnSphere p c' R') :
    c = c' ∧ R = R' := by
  have hd : (ata p).det ≠ 0 := fun h0 => h ((det_eq_zero_iff p).1 h0)
  have key : ∀ (c : Fin d → ℝ) (R : ℝ), OnSphere p c R → solution p = Fin.cons (∑ j, c j ^ 2 - R ^ 2) (fun j => -2 * c j) := by
    intro c R h
    apply solution_unique p hd
    ext i
    rw [matA_mulVec]
    simp only [Fin.cons_zero, Fin.cons_succ, vecB]
    have := h.2 i
    have e : ∑ j, (p i j - c j) ^ 2 = ∑ j, p i j ^ 2 + ∑ j, p i j * (-2 * c j) + ∑ j, c j ^ 2 := by
      rw [← Finset.sum_add_distrib, ← Finset.sum_add_distrib]
      exact Finset.sum_congr rfl fun j _ => by ring
    rw [e] at this
    linarith
  have e := (key c R h1).symm.trans (key c' R' h2)
  have hc : c = c' := by
    ext j
    have := congrFun e j.succ
    simp only [Fin.cons_succ] at this
    linarith
  subst hc
  refine ⟨rfl, ?_⟩
  have := congrFun e 0
  simp only [Fin.cons_zero] at this
  have hsq : R ^ 2 = R' ^ 2 := by linarith
  exact (pow_left_inj₀ h1.1 h2.1 two_ne_zero).1 hsq

/-- Three corners of a square of side 2, on a circle around the origin. -/
def square : Fin 3 → Fin 2 → ℝ := ![![1, 1], ![-1, 1], ![-1, -1]]

theorem matA_2 (p : Fin n → Fin 2 → ℝ) (i : Fin n) : matA p i 0 = 1 ∧ matA p i 1 = p i 0 ∧ matA p i 2 = p i 1 := ⟨rfl, rfl, rfl⟩

theorem ata_square_det : (ata square).det = 16 := by
  rw [ata_eq, Matrix.det_mul, Matrix.det_transpose]
  have : (matA square).det = 4 := by
    rw [Matrix.det_fin_three]
    simp only [matA_2, square]
    simp
    norm_num
  rw [this]
  norm_num

example : getRadius square 0 = (some (Real.sqrt 2), 0) := by
  apply C47_exact
  · refine ⟨Real.sqrt_nonneg _, ?_⟩
    intro i
    rw [Real.sq_sqrt (by norm_num)]
    fin_cases i <;> simp [square, Fin.sum_univ_two] <;> norm_num
  · rw [ata_square_det]
    unfold epsilon
    norm_num

/-- C47 with the threshold in numbers, for a vertex of a 2D interface with two neighbours: radius and center are exact if twice the area of the triangle of
the three points exceeds `2⁻²⁶`, and the radius is infinite otherwise. -/
theorem C47_three_points (p : Fin 3 → Fin 2 → ℝ) (c₀ : Fin 2 → ℝ) :
    let area2 := |(p 1 0 - p 0 0) * (p 2 1 - p 0 1) - (p 1 1 - p 0 1) * (p 2 0 - p 0 0)|
    (1 / 2 ^ 26 < area2 → ∀ (c : Fin 2 → ℝ) (R : ℝ), OnSphere p c R → getRadius p c₀ = (some R, c)) ∧
    (area2 ≤ 1 / 2 ^ 26 → getRadius p c₀ = (none, c₀)) := by
  intro area2
  have hdet : |(ata p).det| = area2 ^ 2 := by
    rw [ata_eq, Matrix.det_mul, Matrix.det_transpose, abs_mul_self]
    have : (matA p).det = (p 1 0 - p 0 0) * (p 2 1 - p 0 1) - (p 1 1 - p 0 1) * (p 2 0 - p 0 0) := by
      rw [Matrix.det_fin_three]
      simp only [matA_2]
      ring
    rw [this, sq_abs, sq]
  have h0 : 0 ≤ area2 := abs_nonneg _
  have he : epsilon = (1 / 2 ^ 26) ^ 2 := by
    unfold epsilon
    norm_num
  constructor
  · intro h c R hs
    refine C47_exact p hs ?_ c₀
    rw [hdet, he]
    nlinarith
  · intro h
    unfold getRadius
    rw [hdet, if_neg]
    rw [he, not_lt]
    nlinarith

/-- The triangle with twice the area 4. -/
example : 1 / 2 ^ 26 < |(square 1 0 - square 0 0) * (square 2 1 - square 0 1) - (square 1 1 - square 0 1) * (square 2 0 - square 0 0)| := by
  have h : square 2 1 = -1 ∧ square 2 0 = -1 := ⟨rfl, rfl⟩
  rw [h.1, h.2]
  norm_num [square]

example : OnHyperplane (![![0, 0], ![1, 1], ![2, 2]] : Fin 3 → Fin 2 → ℝ) := by
  refine ⟨0, ![1, -1], Or.inr ?_, ?_⟩
  · intro h; simpa using congrFun h 0
  · intro i
    fin_cases i <;> simp [Fin.sum_univ_two]

/-- The threshold is absolute: three vertices at distance `1e-5` that determine a circle give an infinite radius. -/
theorem C147_small_false : ∃ (p : Fin 3 → Fin 2 → ℝ) (c : Fin 2 → ℝ) (R : ℝ), OnSphere p c R ∧ 0 < R ∧ ¬ OnHyperplane p ∧
    ∀ c₀, getRadius p c₀ = (none, c₀) := by
  have hdet : (ata (![![0, 0], ![1 / 10 ^ 5, 0], ![0, 1 / 10 ^ 5]] : Fin 3 → Fin 2 → ℝ)).det = 1 / 10 ^ 20 := by
    rw [ata_eq, Matrix.det_mul, Matrix.det_transpose]
    have : (matA (![![0, 0], ![1 / 10 ^ 5, 0], ![0, 1 / 10 ^ 5]] : Fin 3 → Fin 2 → ℝ)).det = 1 / 10 ^ 10 := by
      rw [Matrix.det_fin_three]
      simp only [matA_2]
      simp
      norm_num
    rw [this]
    norm_num
  refine ⟨![![0, 0], ![1 / 10 ^ 5, 0], ![0, 1 / 10 ^ 5]], ![1 / 2 / 10 ^ 5, 1 / 2 / 10 ^ 5], Real.sqrt (1 / 2 / 10 ^ 10), ⟨Real.sqrt_nonneg _, ?_⟩,
    Real.sqrt_pos.2 (by norm_num), ?_, ?_⟩
  · intro i
    rw [Real.sq_sqrt (by norm_num)]
    fin_cases i <;> simp [Fin.sum_univ_two] <;> norm_num
  · rw [← det_eq_zero_iff, hdet]
    norm_num
  · intro c₀
    unfold getRadius
    rw [hdet, if_neg]
    unfold epsilon
    norm_num

theorem vertexLoop_get (vs : List (Pts d)) : ∀ (c₀ : Fin d → ℝ) (i : ℕ) (v : Pts d), vs[i]? = some v →
    ∃ c₁, (vertexLoop vs c₀)[i]? = some (curvature (getRadius v.p c₁).1, (getRadius v.p c₁).2) ∧
      ((i = 0 ∧ c₁ = c₀) ∨ ∃ k r, i = k + 1 ∧ (vertexLoop vs c₀)[k]? = some (r, c₁)) := by
  induction vs with
  | nil => intro c₀ i v h; simp at h
  | cons w vs ih =>
    intro c₀ i v h
    cases i with
    | zero =>
      simp only [List.getElem?_cons_zero, Option.some.injEq] at h
      subst h
      exact ⟨c₀, rfl, Or.inl ⟨rfl, rfl⟩⟩
    | succ i =>
      simp only [List.getElem?_cons_succ] at h
      obtain ⟨c₁, h1, h2⟩ := ih (getRadius w.p c₀).2 i v h
      refine ⟨c₁, h1, Or.inr ?_⟩
      rcases h2 with ⟨rfl, rfl⟩ | ⟨k, r, rfl, h2⟩
      · exact ⟨0, _, rfl, rfl⟩
      · exact ⟨k + 1, r, rfl, h2⟩

/-- C47: the loop over the vertices stores for each vertex the curvature and the center of the circle or sphere of its points. -/
theorem C47_operator (vs : List (Pts d)) (c₀ : Fin d → ℝ) {i : ℕ} {v : Pts d} (hv : vs[i]? = some v) {c : Fin d → ℝ} {R : ℝ}
    (h : OnSphere v.p c R) (hdet : |(ata v.p).det| > epsilon) : (vertexLoop vs c₀)[i]? = some (1 / R, c) := by
  obtain ⟨c₁, h1, -⟩ := vertexLoop_get vs c₀ i v hv
  rw [h1, C47_exact v.p h hdet c₁]
  rfl

/-! ### Element layout -/

theorem addCorners_spec (corners : List (Fin d → ℝ)) : ∀ pts : List (Fin d → ℝ), pts.Nodup →
    (addCorners pts corners).Nodup ∧ ∀ x, x ∈ addCorners pts corners ↔ x ∈ pts ∨ x ∈ corners := by
  induction corners with
  | nil => intro pts h; simpa [addCorners] using h
  | cons c cs ih =>
    intro pts h
    by_cases hc : c ∈ pts
    · have he : addCorners pts (c :: cs) = addCorners pts cs := by simp [addCorners, hc]
      rw [he]
      refine ⟨(ih pts h).1, fun x => ?_⟩
      rw [(ih pts h).2 x, List.mem_cons]
      constructor
      · rintro (h | h)
        · exact Or.inl h
        · exact Or.inr (Or.inr h)
      · rintro (h | rfl | h)
        · exact Or.inl h
        · exact Or.inl hc
        · exact Or.inr h
    · have he : addCorners pts (c :: cs) = addCorners (pts ++ [c]) cs := by simp [addCorners, hc]
      have hn : (pts ++ [c]).Nodup := by
        rw [List.nodup_append]
        refine ⟨h, List.nodup_singleton _, ?_⟩
        intro a ha b hb hab
        rw [List.mem_singleton] at hb
        exact hc (hb ▸ hab ▸ ha)
      rw [he]
      refine ⟨(ih _ hn).1, fun x => ?_⟩
      rw [(ih _ hn).2 x]
      simp [or_assoc]

theorem elementPoints_spec : ∀ (nbs : List (Option (List (Fin d → ℝ)))) (pts : List (Fin d → ℝ)), pts.Nodup → none ∉ nbs →
    ∃ l, elementPoints nbs pts = some l ∧ l.Nodup ∧ ∀ x, x ∈ l ↔ x ∈ pts ∨ ∃ c, some c ∈ nbs ∧ x ∈ c
  | [], pts, h, _ => ⟨pts, rfl, h, by simp⟩
  | none :: nbs, pts, h, hn => absurd (List.mem_cons_self) hn
  | some c :: nbs, pts, h, hn => by
    obtain ⟨l, h1, h2, h3⟩ := elementPoints_spec nbs (addCorners pts c) (addCorners_spec c pts h).1
      (fun hm => hn (List.mem_cons_of_mem _ hm))
    refine ⟨l, h1, h2, fun x => ?_⟩
    rw [h3, (addCorners_spec c pts h).2 x]
    constructor
    · rintro ((h | h) | ⟨c', h, hx⟩)
      · exact Or.inl h
      · exact Or.inr ⟨c, List.mem_cons_self, h⟩
      · exact Or.inr ⟨c', List.mem_cons_of_mem _ h, hx⟩
    · rintro (h | ⟨c', h, hx⟩)
      · exact Or.inl (Or.inl h)
      · rcases List.mem_cons.1 h with h | h
        · cases h
          exact Or.inl (Or.inr hx)
        · exact Or.inr ⟨c', h, hx⟩

theorem elementPoints_none : ∀ (nbs : List (Option (List (Fin d → ℝ)))) (pts : List (Fin d → ℝ)), none ∈ nbs →
    elementPoints nbs pts = none
  | [], _, h => by simp at h
  | none :: _, _, _ => rfl
  | some c :: nbs, pts, h => by
    rw [elementPoints]
    exact elementPoints_none nbs _ (by simpa using h)

theorem ata_list (l : List (Fin d → ℝ)) (i j : Fin (d + 1)) :
    ata l.get i j = (l.map fun q => (Fin.cons 1 q : Fin (d + 1) → ℝ) i * (Fin.cons 1 q : Fin (d + 1) → ℝ) j).sum := by
  unfold ata matA
  rw [← List.sum_ofFn]
  congr 1
  conv_rhs => rw [← List.ofFn_get l, List.map_ofFn]
  rfl

theorem ata_perm {l l' : List (Fin d → ℝ)} (h : l.Perm l') : ata l.get = ata l'.get := by
  ext i j
  rw [ata_list, ata_list]
  exact (h.map _).sum_eq

/-- C47, element layout: in an interface without boundary (every intersection of every element has an outside element) the call
is defined; if the corners of the neighbours of an element, each taken once, lie on a circle or sphere, and their determinant exceeds the threshold,
curvature and center of the element are those of the circle or sphere. -/
theorem C47_element (es : List (List (Option (List (Fin d → ℝ))))) (hclosed : ∀ e ∈ es, none ∉ e) (c₀ : Fin d → ℝ) :
    ∃ L, elementLoop es c₀ = some L ∧ L.length = es.length ∧ ∀ (i : ℕ) (e : List (Option (List (Fin d → ℝ)))), es[i]? = some e →
      ∀ (l : List (Fin d → ℝ)) (c : Fin d → ℝ) (R : ℝ), l.Nodup → (∀ x, x ∈ l ↔ ∃ corners, some corners ∈ e ∧ x ∈ corners) →
        OnSphere l.get c R → |(ata l.get).det| > epsilon → L[i]? = some (1 / R, c) := by
  induction es generalizing c₀ with
  | nil => exact ⟨[], rfl, rfl, by simp⟩
  | cons e es ih =>
    obtain ⟨l, h1, h2, h3⟩ := elementPoints_spec e [] List.nodup_nil (hclosed e List.mem_cons_self)
    obtain ⟨L, hL, hlen, hget⟩ := ih (fun e' he' => hclosed e' (List.mem_cons_of_mem _ he')) (getRadius l.get c₀).2
    refine ⟨(curvature (getRadius l.get c₀).1, (getRadius l.get c₀).2) :: L, ?_, by simp [hlen], ?_⟩
    · simp only [elementLoop, h1, Option.bind_eq_bind, Option.bind_some, hL]
      rfl
    · intro i e' he'
      cases i with
      | zero =>
        simp only [List.getElem?_cons_zero, Option.some.injEq] at he'
        subst he'
        intro l' c R hn hm hs hd
        have hp : l'.Perm l := (List.perm_ext_iff_of_nodup hn h2).2 fun x => by rw [hm, h3]; simp
        have hs' : OnSphere l.get c R := by
          refine ⟨hs.1, fun k => ?_⟩
          obtain ⟨k', hk'⟩ := List.mem_iff_get.1 (hp.mem_iff.2 (List.get_mem l k))
          rw [← hk']
          exact hs.2 k'
        rw [ata_perm hp] at hd
        rw [List.getElem?_cons_zero, C47_exact l.get hs' hd c₀]
        rfl
      | succ i => exact hget i e' he'

/-- The boundary of a triangle as an interface of three segments: the neighbours of each segment have the three corners. -/
example : ∃ L, elementLoop [[some [square 2, square 0], some [square 1, square 2]], [some [square 0, square 1], some [square 2, square 0]],
      [some [square 1, square 2], some [square 0, square 1]]] 0 = some L ∧
    L[1]? = some (1 / Real.sqrt 2, 0) := by
  obtain ⟨L, h1, -, h2⟩ := C47_element [[some [square 2, square 0], some [square 1, square 2]], [some [square 0, square 1], some [square 2, square 0]],
      [some [square 1, square 2], some [square 0, square 1]]] (by simp) 0
  refine ⟨L, h1, h2 1 _ rfl (List.ofFn square) 0 _ ?_ ?_ ?_ ?_⟩
  · rw [List.nodup_ofFn]
    intro a b h
    have h0 := congrFun h 0
    have h1 := congrFun h 1
    fin_cases a <;> fin_cases b <;> first | rfl | (exfalso; norm_num [square] at h0; done) | (exfalso; norm_num [square] at h1; done)
  · intro x
    simp only [List.mem_ofFn, Fin.exists_fin_succ]
    simp
    tauto
  · refine ⟨Real.sqrt_nonneg _, ?_⟩
    intro i
    rw [Real.sq_sqrt (by norm_num), List.get_ofFn]
    generalize Fin.cast _ i = k
    fin_cases k <;> simp [square, Fin.sum_univ_two] <;> norm_num
  · have : ata (List.ofFn square).get = ata square := by
      ext i j
      rw [ata_list, List.map_ofFn, List.sum_ofFn]
      rfl
    rw [this, ata_square_det]
    unfold epsilon
    norm_num

/-- C147: with an element at the boundary of the interface the element layout is undefined. -/
theorem C147_element_boundary_false (es : List (List (Option (List (Fin d → ℝ))))) (h : ∃ e ∈ es, none ∈ e) (c₀ : Fin d → ℝ) :
    elementLoop es c₀ = none := by
  induction es generalizing c₀ with
  | nil => simp at h
  | cons e es ih =>
    rw [elementLoop]
    by_cases he : none ∈ e
    · rw [elementPoints_none e [] he]
      rfl
    · have hr : ∃ e ∈ es, none ∈ e := by
        obtain ⟨e', he', hn⟩ := h
        rcases List.mem_cons.1 he' with rfl | he'
        · exact absurd hn he
        · exact ⟨e', he', hn⟩
      obtain ⟨l, h1, -⟩ := elementPoints_spec e [] List.nodup_nil he
      simp only [h1, Option.bind_eq_bind, Option.bind_some, ih hr]
      rfl

/-- For a vertex whose points are on a line or plane (a tip, a straight part) the curvature is zero and the stored center is the
one of the vertex before it in the iteration, or indeterminate for the first. -/
theorem C147_stale_center_false (vs : List (Pts d)) (c₀ : Fin d → ℝ) {i : ℕ} {v : Pts d} (hv : vs[i]? = some v) (h : OnHyperplane v.p) :
    ∃ c₁, (vertexLoop vs c₀)[i]? = some (0, c₁) ∧ ((i = 0 ∧ c₁ = c₀) ∨ ∃ k r, i = k + 1 ∧ (vertexLoop vs c₀)[k]? = some (r, c₁)) := by
  obtain ⟨c₁, h1, h2⟩ := vertexLoop_get vs c₀ i v hv
  rw [C47_flat v.p h c₁] at h1
  exact ⟨c₁, h1, h2⟩

end Verif.Curvature
