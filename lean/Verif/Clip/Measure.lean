import Verif.Clip.Area
import Mathlib.MeasureTheory.Measure.Lebesgue.EqHaar
import Mathlib.MeasureTheory.Measure.Lebesgue.Integral
import Mathlib.MeasureTheory.Integral.IntervalIntegral.FundThmCalculus
import Mathlib.Analysis.SpecialFunctions.Integrals.Basic
import Mathlib.Analysis.Convex.Topology
import Mathlib.LinearAlgebra.Matrix.ToLin

/-!
# C41: the area is the Lebesgue measure

For real coordinates `polygonArea` of a convex polygon is, up to the sign of the orientation, the Lebesgue measure of the
convex hull of its points.
-/

namespace Verif.Clip

open MeasureTheory

/-- Lebesgue measure in the plane. -/
noncomputable abbrev leb : Measure (ℝ × ℝ) := MeasureTheory.volume

instance : leb.IsAddHaarMeasure := by
  unfold leb; rw [Measure.volume_eq_prod]; infer_instance

/-- The standard triangle. -/
theorem hull_std : hull [((0 : ℝ), (0 : ℝ)), (1, 0), (0, 1)] = {x | 0 ≤ x.1 ∧ 0 ≤ x.2 ∧ x.1 + x.2 ≤ 1} := by
  have hs : StrictlyConvex [((0 : ℝ), (0 : ℝ)), (1, 0), (0, 1)] := by
    refine ⟨by simp, fun a b c h => ?_⟩
    have := h.eq_of_length rfl
    simp only [List.cons.injEq, and_true] at this
    obtain ⟨rfl, rfl, rfl⟩ := this
    simp [side]
  ext x
  rw [← region_eq_hull hs]
  simp only [LeftOfAll, Set.mem_ofPred_eq]
  constructor
  · intro h
    have h0 := h 0 (by simp)
    have h1 := h 1 (by simp)
    have h2 := h 2 (by simp)
    simp [side] at h0 h1 h2
    exact ⟨h2, h0, by linarith⟩
  · rintro ⟨h0, h1, h2⟩ i hi
    have : i = 0 ∨ i = 1 ∨ i = 2 := by simp at hi; omega
    rcases this with rfl | rfl | rfl
    · simpa [side] using h1
    · simp [side]; linarith
    · simpa [side] using h0

theorem measurable_hull (l : List (ℝ × ℝ)) : MeasurableSet (hull l) :=
  ((l.finite_toSet.isCompact_convexHull ℝ).isClosed).measurableSet

theorem measure_hull_ne_top (l : List (ℝ × ℝ)) : leb (hull l) ≠ ⊤ :=
  (l.finite_toSet.isCompact_convexHull ℝ).measure_lt_top.ne

theorem measure_std : leb (hull [((0 : ℝ), (0 : ℝ)), (1, 0), (0, 1)]) = ENNReal.ofReal (1 / 2) := by
  rw [leb, Measure.volume_eq_prod, Measure.prod_apply (measurable_hull _), hull_std]
  have h1 : ∀ x : ℝ, MeasureTheory.volume (Prod.mk x ⁻¹' {x : ℝ × ℝ | 0 ≤ x.1 ∧ 0 ≤ x.2 ∧ x.1 + x.2 ≤ 1}) =
      (Set.Icc (0 : ℝ) 1).indicator (fun x => ENNReal.ofReal (1 - x)) x := by
    intro x
    by_cases hx : x ∈ Set.Icc (0 : ℝ) 1
    · rw [Set.indicator_of_mem hx]
      have : Prod.mk x ⁻¹' {x : ℝ × ℝ | 0 ≤ x.1 ∧ 0 ≤ x.2 ∧ x.1 + x.2 ≤ 1} = Set.Icc 0 (1 - x) := by
        ext y
        simp only [Set.mem_preimage, Set.mem_ofPred_eq, Set.mem_Icc]
        constructor
        · rintro ⟨_, h, h'⟩; exact ⟨h, by linarith⟩
        · rintro ⟨h, h'⟩; exact ⟨hx.1, h, by linarith⟩
      rw [this, Real.volume_Icc, sub_zero]
    · rw [Set.indicator_of_notMem hx]
      have : Prod.mk x ⁻¹' {x : ℝ × ℝ | 0 ≤ x.1 ∧ 0 ≤ x.2 ∧ x.1 + x.2 ≤ 1} = ∅ := by
        ext y
        simp only [Set.mem_preimage, Set.mem_ofPred_eq, Set.mem_empty_iff_false, iff_false]
        rintro ⟨h, h', h''⟩
        exact hx ⟨h, by linarith⟩
      rw [this, measure_empty]
  simp only [h1]
  rw [lintegral_indicator measurableSet_Icc]
  rw [← ofReal_integral_eq_lintegral_ofReal]
  · congr 1
    rw [integral_Icc_eq_integral_Ioc, ← intervalIntegral.integral_of_le zero_le_one]
    rw [intervalIntegral.integral_sub (by simp) (by simp)]
    simp
    norm_num
  · exact (continuous_const.sub continuous_id).continuousOn.integrableOn_Icc
  · refine (ae_restrict_iff' measurableSet_Icc).2 (Filter.Eventually.of_forall fun x hx => ?_)
    simpa using hx.2

/-- The linear map that maps the standard triangle to a triangle with corner zero. -/
noncomputable def edgeMap (u v : ℝ × ℝ) : (ℝ × ℝ) →ₗ[ℝ] (ℝ × ℝ) :=
  Matrix.toLin (Module.Basis.finTwoProd ℝ) (Module.Basis.finTwoProd ℝ) !![u.1, v.1; u.2, v.2]

theorem edgeMap_apply (u v x : ℝ × ℝ) : edgeMap u v x = (u.1 * x.1 + v.1 * x.2, u.2 * x.1 + v.2 * x.2) := by
  rw [edgeMap, Matrix.toLin_finTwoProd_apply]

theorem edgeMap_det (u v : ℝ × ℝ) : LinearMap.det (edgeMap u v) = u.1 * v.2 - v.1 * u.2 := by
  rw [edgeMap, LinearMap.det_toLin, Matrix.det_fin_two_of]

/-- The measure of a triangle. -/
theorem measure_triangle (a b c : ℝ × ℝ) : leb (hull [a, b, c]) = ENNReal.ofReal (|side a b c| / 2) := by
  have himg : hull [a, b, c] = (fun x => a + x) '' (edgeMap (b - a) (c - a) '' hull [((0 : ℝ), (0 : ℝ)), (1, 0), (0, 1)]) := by
    have h := (convexHull_vadd (𝕜 := ℝ) a (edgeMap (b - a) (c - a) '' {p | p ∈ [((0 : ℝ), (0 : ℝ)), (1, 0), (0, 1)]})).symm
    unfold hull
    rw [LinearMap.image_convexHull]
    refine Eq.trans ?_ h.symm
    congr 1
    have e : {p | p ∈ [((0 : ℝ), (0 : ℝ)), (1, 0), (0, 1)]} = {(0, 0), (1, 0), (0, 1)} := by ext; simp
    rw [e, ← Set.image_vadd]
    simp only [Set.image_insert_eq, Set.image_singleton, edgeMap_apply]
    have e0 : a + ((0 : ℝ), (0 : ℝ)) = a := by ext <;> simp
    have e1 : a + (b.1 - a.1, b.2 - a.2) = b := by ext <;> simp
    have e2 : a + (c.1 - a.1, c.2 - a.2) = c := by ext <;> simp
    ext x
    simp [e0, e1, e2]
  rw [himg, Set.image_add_left, measure_preimage_add, Measure.addHaar_image_linearMap, measure_std, edgeMap_det,
    ← ENNReal.ofReal_mul (abs_nonneg _)]
  congr 1
  simp only [side, Prod.fst_sub, Prod.snd_sub]
  rw [mul_one_div]
  congr 2
  ring

theorem hull_mono {l l' : List (ℝ × ℝ)} (h : ∀ x ∈ l, x ∈ l') : hull l ⊆ hull l' := convexHull_mono h

/-- A line has measure zero. -/
theorem measure_line {p r : ℝ × ℝ} (h : p ≠ r) : leb {x | side p r x = 0} = 0 := by
  let s : AffineSubspace ℝ (ℝ × ℝ) :=
    { carrier := {x | side p r x = 0}
      smul_vsub_vadd_mem' := by
        intro c x y z hx hy hz
        simp only [Set.mem_ofPred_eq, side, vsub_eq_sub, vadd_eq_add, Prod.fst_add, Prod.snd_add, Prod.smul_fst, Prod.smul_snd,
          Prod.fst_sub, Prod.snd_sub, smul_eq_mul] at hx hy hz ⊢
        linear_combination c * hx - c * hy + hz }
  have hs : s ≠ ⊤ := by
    intro e
    have h1 : (p.1 - (r.2 - p.2), p.2 + (r.1 - p.1)) ∈ s := by rw [e]; trivial
    have h2 : side p r (p.1 - (r.2 - p.2), p.2 + (r.1 - p.1)) = 0 := h1
    simp only [side] at h2
    apply h
    ext <;> nlinarith [sq_nonneg (r.1 - p.1), sq_nonneg (r.2 - p.2)]
  exact Measure.addHaar_affineSubspace leb s hs

/-- If all points are on a line, the hull has measure zero. -/
theorem measure_hull_line {p r : ℝ × ℝ} (h : p ≠ r) {l : List (ℝ × ℝ)} (hl : ∀ x ∈ l, side p r x = 0) : leb (hull l) = 0 := by
  refine measure_mono_null ?_ (measure_line h)
  refine hull_min ?_ hl
  intro x hx y hy a b _ _ hab
  have hx' : side p r x = 0 := hx
  have hy' : side p r y = 0 := hy
  show side p r (a • x + b • y) = 0
  rw [side_affine3 hab, hx', hy']; ring

/-- Points of `sub` if nothing is inserted. -/
theorem sub_plain {q1 q2 : ℝ × ℝ} (r : List (ℝ × ℝ)) : ∀ p, NC q1 q2 p r → sub 0 q1 q2 p r = r := by
  induction r with
  | nil => intro p _; rfl
  | cons s r ih =>
    intro p h
    simp only [sub, ih s h.2.2]
    have : ins 0 q1 q2 p s = [] := by
      unfold ins
      rw [if_neg]
      rintro (hc | hc)
      · exact h.2.1 ⟨hc.1, by simpa using hc.2⟩
      · exact h.1 ⟨by simpa using hc.1, hc.2⟩
    rw [this]; rfl

/-- The part of a hull on one side of a line that no edge of the polygon crosses. -/
theorem hull_side {σ : ℝ} (hσ : σ ≠ 0) {q1 q2 p : ℝ × ℝ} {t : List (ℝ × ℝ)} (hc : Convex3 σ (p :: t)) (hn : NC q1 q2 p (t ++ [p]))
    {x : ℝ × ℝ} (hx : x ∈ hull (p :: t)) (hp : pos q1 q2 x ≤ 0) :
    x ∈ hull ((p :: t).filter fun y => decide (pos q1 q2 y ≤ 0)) := by
  have h := clipEdge_lower le_rfl (q1, q2) hσ hc hx (by simpa using hp)
  rw [clipEdge_cons le_rfl, sub_plain _ _ hn] at h
  refine hull_mono ?_ h
  intro y hy
  rw [List.mem_filter] at hy ⊢
  refine ⟨?_, hy.2⟩
  have := hy.1
  simp only [List.mem_append, List.mem_singleton] at this
  simp only [List.mem_cons]
  tauto

theorem nc_le {q1 q2 : ℝ × ℝ} (r : List (ℝ × ℝ)) : ∀ p, pos q1 q2 p ≤ 0 → (∀ x ∈ r, pos q1 q2 x ≤ 0) → NC q1 q2 p r := by
  induction r with
  | nil => intro _ _ _; trivial
  | cons s r ih =>
    intro p h1 h2
    have hs := h2 s (by simp)
    exact ⟨fun h => absurd h.2 (not_lt.2 hs), fun h => absurd h.1 (not_lt.2 h1), ih s hs fun x hx => h2 x (by simp [hx])⟩

theorem nc_ge {q1 q2 : ℝ × ℝ} (r : List (ℝ × ℝ)) : ∀ p, 0 ≤ pos q1 q2 p → (∀ x ∈ r, 0 ≤ pos q1 q2 x) → NC q1 q2 p r := by
  induction r with
  | nil => intro _ _ _; trivial
  | cons s r ih =>
    intro p h1 h2
    have hs := h2 s (by simp)
    exact ⟨fun h => absurd h.1 (not_lt.2 h1), fun h => absurd h.2 (not_lt.2 hs), ih s hs fun x hx => h2 x (by simp [hx])⟩

/-- Cutting off one corner of a convex polygon. -/
theorem measure_cut_corner {σ : ℝ} (hσ : σ ≠ 0) {p s r : ℝ × ℝ} {t : List (ℝ × ℝ)} (hc : Convex3 σ (p :: s :: r :: t)) :
    leb (hull (p :: s :: r :: t)) = leb (hull [p, s, r]) + leb (hull (p :: r :: t)) := by
  have h1 : 0 ≤ σ * side p s r := convex3_triple hc (by simp)
  have ht : ∀ x ∈ t, 0 ≤ σ * side p r x ∧ 0 ≤ σ * side s r x ∧ 0 ≤ σ * side p s x := by
    intro x hx
    have hx' : [x].Sublist t := by simpa using hx
    refine ⟨convex3_triple hc ?_, convex3_triple hc ?_, convex3_triple hc ?_⟩
    · exact ((hx'.cons_cons r).cons s).cons_cons p
    · exact ((hx'.cons_cons r).cons_cons s).cons p
    · exact ((hx'.cons r).cons_cons s).cons_cons p
  by_cases hpr : p = r
  · subst hpr
    have h0 : leb (hull [p, s, p]) = 0 := by rw [measure_triangle, side_self3]; simp
    rw [h0, zero_add]
    by_cases hps : p = s
    · subst hps
      congr 1
      apply Set.Subset.antisymm <;> exact hull_mono (by simp)
    · have hall : ∀ x ∈ p :: s :: p :: t, side p s x = 0 := by
        intro x hx
        simp only [List.mem_cons] at hx
        rcases hx with rfl | rfl | rfl | hx
        · exact side_self3 _ _
        · exact side_self2 _ _
        · exact side_self3 _ _
        · obtain ⟨_, h2, h3⟩ := ht x hx
          have e : side s p x = -side p s x := by simp only [side]; ring
          rw [e] at h2
          have : σ * side p s x = 0 := by linarith
          exact (mul_eq_zero.1 this).resolve_left hσ
      rw [measure_hull_line hps hall, measure_hull_line hps fun x hx => hall x (by simp only [List.mem_cons] at hx ⊢; tauto)]
  · -- orient the chord such that the remaining polygon is on the side where the position is not positive
    obtain ⟨q1, q2, hq, ⟨hp0, hr0⟩, hs0, ht0⟩ : ∃ q1 q2 : ℝ × ℝ, (∀ x, pos q1 q2 x = 0 ↔ side p r x = 0) ∧ (pos q1 q2 p = 0 ∧ pos q1 q2 r = 0) ∧
        0 ≤ pos q1 q2 s ∧ ∀ x ∈ t, pos q1 q2 x ≤ 0 := by
      have e1 : ∀ x, pos p r x = -side p r x := fun x => pos_eq p r x
      have e2 : ∀ x, pos r p x = side p r x := fun x => by rw [pos_swap, e1]; ring
      rcases lt_or_gt_of_ne hσ with hσ' | hσ'
      · refine ⟨r, p, fun x => by rw [e2], ⟨by rw [e2, side_self3], by rw [e2, side_self2]⟩, ?_, fun x hx => ?_⟩
        · rw [e2, side_swap]
          have := nonpos_of_mul_nonneg_right h1 hσ'
          linarith
        · rw [e2]
          exact nonpos_of_mul_nonneg_right (ht x hx).1 hσ'
      · refine ⟨p, r, fun x => by rw [e1, neg_eq_zero], ⟨by rw [e1, side_self3, neg_zero], by rw [e1, side_self2, neg_zero]⟩, ?_, fun x hx => ?_⟩
        · rw [e1, side_swap, neg_neg]
          exact nonneg_of_mul_nonneg_right h1 hσ'
        · rw [e1]
          have := nonneg_of_mul_nonneg_right (ht x hx).1 hσ'
          linarith
    by_cases hpsr : side p s r = 0
    · have hz : leb (hull [p, s, r]) = 0 := by rw [measure_triangle, hpsr]; simp
      rw [hz, zero_add]
      have hsl : side p r s = 0 := by rw [side_swap, hpsr, neg_zero]
      by_cases hall : ∀ x ∈ t, side p r x = 0
      · have hall' : ∀ x ∈ p :: s :: r :: t, side p r x = 0 := by
          intro x hx
          simp only [List.mem_cons] at hx
          rcases hx with rfl | rfl | rfl | hx
          · exact side_self3 _ _
          · exact hsl
          · exact side_self2 _ _
          · exact hall x hx
        rw [measure_hull_line hpr hall', measure_hull_line hpr fun x hx => hall' x (by simp only [List.mem_cons] at hx ⊢; tauto)]
      · push Not at hall
        obtain ⟨x, hx, hx0⟩ := hall
        obtain ⟨k1, k2, k3⟩ := ht x hx
        have hpos : 0 < σ * side p r x := lt_of_le_of_ne k1 (Ne.symm (mul_ne_zero hσ hx0))
        have hseg : s ∈ segment ℝ p r := by
          have hd : side s r x + side p s x = side p r x := by simp only [side] at hsl ⊢; linarith
          refine ⟨side s r x / side p r x, side p s x / side p r x, ?_, ?_, ?_, ?_⟩
          · rw [← mul_div_mul_left _ _ hσ]; exact div_nonneg k2 hpos.le
          · rw [← mul_div_mul_left _ _ hσ]; exact div_nonneg k3 hpos.le
          · rw [← add_div, hd, div_self hx0]
          · ext
            · simp only [Prod.fst_add, Prod.smul_fst, smul_eq_mul]
              field_simp
              simp only [side] at hsl ⊢
              linear_combination (-x.1) * hsl
            · simp only [Prod.snd_add, Prod.smul_snd, smul_eq_mul]
              field_simp
              simp only [side] at hsl ⊢
              linear_combination (-x.2) * hsl
        congr 1
        apply Set.Subset.antisymm
        · refine hull_min (convex_hull _) ?_
          intro y hy
          simp only [List.mem_cons] at hy
          rcases hy with rfl | rfl | rfl | hy
          · exact mem_hull (by simp)
          · exact hull_segment (mem_hull (by simp)) (mem_hull (by simp)) hseg
          · exact mem_hull (by simp)
          · exact mem_hull (by simp [hy])
        · exact hull_mono (by simp only [List.mem_cons]; tauto)
    · have hs1 : 0 < pos q1 q2 s := by
        refine lt_of_le_of_ne hs0 fun e => hpsr ?_
        have := (hq s).1 e.symm
        rw [side_swap] at this
        linarith
      have hnc : NC q1 q2 p (s :: r :: t ++ [p]) := by
        refine ⟨fun h => absurd h.1 (by rw [hp0]; simp), fun h => absurd h.1 (by rw [hp0]; simp), fun h => absurd h.2 (by rw [hr0]; simp),
          fun h => absurd h.2 (by rw [hr0]; simp), nc_le _ _ hr0.le ?_⟩
        intro x hx
        rcases List.mem_append.1 hx with hx | hx
        · exact ht0 x hx
        · rw [List.mem_singleton.1 hx]; exact hp0.le
      have hnc' : NC q2 q1 p (s :: r :: t ++ [p]) := by
        have key : ∀ (l : List (ℝ × ℝ)) (z : ℝ × ℝ), NC q1 q2 z l → NC q2 q1 z l := by
          intro l
          induction l with
          | nil => intro _ _; trivial
          | cons a l ih =>
            intro z h
            refine ⟨?_, ?_, ih a h.2.2⟩
            · rw [pos_swap q1 q2, pos_swap q1 q2]
              rintro ⟨h1, h2⟩
              exact h.2.1 ⟨by linarith, by linarith⟩
            · rw [pos_swap q1 q2, pos_swap q1 q2]
              rintro ⟨h1, h2⟩
              exact h.1 ⟨by linarith, by linarith⟩
        exact key _ _ hnc
      have hH : MeasurableSet {x : ℝ × ℝ | pos q1 q2 x ≤ 0} := by
        refine (isClosed_le ?_ continuous_const).measurableSet
        unfold pos
        fun_prop
      -- the part on the side of the remaining polygon
      have hA : hull (p :: s :: r :: t) ∩ {x | pos q1 q2 x ≤ 0} = hull (p :: r :: t) := by
        apply Set.Subset.antisymm
        · rintro x ⟨hx, hx0⟩
          refine hull_mono ?_ (hull_side hσ hc hnc hx hx0)
          intro y hy
          rw [List.mem_filter] at hy
          have h2 : pos q1 q2 y ≤ 0 := by simpa using hy.2
          have h3 := hy.1
          simp only [List.mem_cons] at h3 ⊢
          rcases h3 with h3 | h3 | h3
          · exact Or.inl h3
          · rw [h3] at h2; exact absurd h2 (not_le.2 hs1)
          · exact Or.inr h3
        · refine Set.subset_inter (hull_mono (by simp only [List.mem_cons]; tauto)) (hull_min (convex_le _ _ _) ?_)
          intro y hy
          simp only [List.mem_cons] at hy
          rcases hy with rfl | rfl | hy
          · exact hp0.le
          · exact hr0.le
          · exact ht0 y hy
      -- the part on the other side
      have hB : hull (p :: s :: r :: t) \ {x | pos q1 q2 x ≤ 0} = hull [p, s, r] \ {x | pos q1 q2 x ≤ 0} := by
        apply Set.Subset.antisymm
        · rintro x ⟨hx, hx0⟩
          refine ⟨?_, hx0⟩
          have hx1 : pos q2 q1 x ≤ 0 := by
            have : ¬ pos q1 q2 x ≤ 0 := hx0
            rw [pos_swap q1 q2]; linarith
          refine hull_min (convex_hull _) ?_ (hull_side hσ hc hnc' hx hx1)
          intro y hy
          rw [List.mem_filter] at hy
          have h2 : 0 ≤ pos q1 q2 y := by have : pos q2 q1 y ≤ 0 := by simpa using hy.2
                                          rw [pos_swap q1 q2] at this; linarith
          have h3 := hy.1
          simp only [List.mem_cons] at h3
          rcases h3 with rfl | rfl | rfl | h3
          · exact mem_hull (by simp)
          · exact mem_hull (by simp)
          · exact mem_hull (by simp)
          · have hy0 : side p r y = 0 := (hq y).1 (le_antisymm (ht0 y h3) h2)
            obtain ⟨_, k2, k3⟩ := ht y h3
            have hpos : 0 < σ * side p s r := lt_of_le_of_ne h1 (Ne.symm (mul_ne_zero hσ hpsr))
            have hd : side s r y + side p s y = side p s r := by simp only [side] at hy0 ⊢; linarith
            refine hull_segment (a := p) (b := r) (mem_hull (by simp)) (mem_hull (by simp)) ?_
            refine ⟨side s r y / side p s r, side p s y / side p s r, ?_, ?_, ?_, ?_⟩
            · rw [← mul_div_mul_left _ _ hσ]; exact div_nonneg k2 hpos.le
            · rw [← mul_div_mul_left _ _ hσ]; exact div_nonneg k3 hpos.le
            · rw [← add_div, hd, div_self hpsr]
            · ext
              · simp only [Prod.fst_add, Prod.smul_fst, smul_eq_mul]
                field_simp
                simp only [side] at hy0 ⊢
                linear_combination (s.1) * hy0
              · simp only [Prod.snd_add, Prod.smul_snd, smul_eq_mul]
                field_simp
                simp only [side] at hy0 ⊢
                linear_combination (s.2) * hy0
        · exact Set.sdiff_subset_sdiff_left (hull_mono (by simp only [List.mem_cons, List.mem_singleton]; tauto))
      have hC : leb (hull [p, s, r] ∩ {x | pos q1 q2 x ≤ 0}) = 0 := by
        refine measure_mono_null ?_ (measure_line hpr)
        rintro x ⟨hx, hx0⟩
        have hge : 0 ≤ pos q1 q2 x := by
          have : x ∈ {x | pos q2 q1 x ≤ 0} := by
            refine hull_min (convex_le q2 q1 0) ?_ hx
            intro y hy
            show pos q2 q1 y ≤ 0
            rw [pos_swap q1 q2]
            simp only [List.mem_cons, List.not_mem_nil, or_false] at hy
            rcases hy with rfl | rfl | rfl
            · rw [hp0]; simp
            · linarith
            · rw [hr0]; simp
          have : pos q2 q1 x ≤ 0 := this
          rw [pos_swap q1 q2] at this; linarith
        exact (hq x).1 (le_antisymm hx0 hge)
      rw [← measure_inter_add_sdiff (hull (p :: s :: r :: t)) hH, hA, hB, add_comm]
      congr 1
      rw [← measure_inter_add_sdiff (hull [p, s, r]) hH, hC, zero_add]

theorem area2_cut_corner (p s r : ℝ × ℝ) (t : List (ℝ × ℝ)) : area2 (p :: s :: r :: t) = side p s r + area2 (p :: r :: t) := by
  simp only [area2, path, cross, side, List.cons_append]
  ring

theorem measure_convex3 {σ : ℝ} (hσ : σ ≠ 0) : ∀ (n : Nat) (l : List (ℝ × ℝ)), l.length = n → Convex3 σ l →
    0 ≤ σ * area2 l ∧ leb (hull l) = ENNReal.ofReal (|area2 l| / 2) := by
  intro n
  induction n with
  | zero =>
    intro l hl _
    obtain rfl := List.length_eq_zero_iff.1 hl
    simp [area2, hull]
  | succ n ih =>
    intro l hl hc
    match l with
    | [] => simp at hl
    | [a] =>
      have e : hull [a] = hull [a, a, a] := by apply Set.Subset.antisymm <;> exact hull_mono (by simp)
      rw [e, measure_triangle]
      simp [area2, path, cross, side]
    | [a, b] =>
      have e : hull [a, b] = hull [a, a, b] := by apply Set.Subset.antisymm <;> exact hull_mono (by simp)
      have h2 : area2 [a, b] = 0 := by simp only [area2, path, cross, List.cons_append, List.nil_append]; ring
      rw [e, measure_triangle, h2, side_self1]
      simp
    | p :: s :: r :: t =>
      have hl' : (p :: r :: t).length = n := by simpa using hl
      have hc' : Convex3 σ (p :: r :: t) := convex3_sublist (by simp) hc
      obtain ⟨h1, h2⟩ := ih _ hl' hc'
      have h3 : 0 ≤ σ * side p s r := convex3_triple hc (by simp)
      rw [area2_cut_corner, measure_cut_corner hσ hc, h2, measure_triangle]
      refine ⟨by rw [mul_add]; exact add_nonneg h3 h1, ?_⟩
      rw [← ENNReal.ofReal_add (by positivity) (by positivity)]
      congr 1
      rw [← add_div]
      congr 1
      rcases lt_or_gt_of_ne hσ with hs | hs
      · have h4 := nonpos_of_mul_nonneg_right h3 hs
        have h5 := nonpos_of_mul_nonneg_right h1 hs
        rw [abs_of_nonpos h4, abs_of_nonpos h5, abs_of_nonpos (add_nonpos h4 h5)]; ring
      · have h4 := nonneg_of_mul_nonneg_right h3 hs
        have h5 := nonneg_of_mul_nonneg_right h1 hs
        rw [abs_of_nonneg h4, abs_of_nonneg h5, abs_of_nonneg (add_nonneg h4 h5)]

/-! ## C41 -/

/-- C41: for any list of points in convex position, in either orientation, the computed area is, up to the sign, the Lebesgue
measure of the polygon. -/
theorem C41_measure {l : List (ℝ × ℝ)} (h : ConvexPosition l ∨ ConvexPositionCW l) :
    MeasureTheory.volume (convexHull ℝ {p | p ∈ l}) = ENNReal.ofReal |polygonArea l| := by
  obtain ⟨σ, hσ, hc⟩ := convexPosition_cases h
  have := (measure_convex3 hσ _ l rfl hc).2
  rw [polygonArea_eq, abs_div, abs_of_pos (two_pos (α := ℝ))]
  exact this

/-- A triangle as a set of points. -/
def region (t : (ℝ × ℝ) × (ℝ × ℝ) × (ℝ × ℝ)) : Set (ℝ × ℝ) := convexHull ℝ {t.1, t.2.1, t.2.2}

theorem region_eq (t : (ℝ × ℝ) × (ℝ × ℝ) × (ℝ × ℝ)) : region t = hull [t.1, t.2.1, t.2.2] := by
  unfold region hull
  congr 1
  ext x
  simp

theorem measurable_region (t : (ℝ × ℝ) × (ℝ × ℝ) × (ℝ × ℝ)) : MeasurableSet (region t) := by
  rw [region_eq]; exact measurable_hull _

theorem region_ne_top (t : (ℝ × ℝ) × (ℝ × ℝ) × (ℝ × ℝ)) : leb (region t) ≠ ⊤ := by
  rw [region_eq]; exact measure_hull_ne_top _

/-- The volume of a triangle is its Lebesgue measure. -/
theorem volume_measure (t : (ℝ × ℝ) × (ℝ × ℝ) × (ℝ × ℝ)) : volume t = (leb (region t)).toReal := by
  rw [region_eq, measure_triangle, ENNReal.toReal_ofReal (by positivity)]
  rfl

theorem sum_filter_pos (fs : List ((ℝ × ℝ) × (ℝ × ℝ) × (ℝ × ℝ))) : ((fs.filter fun t => volume t > 0).map volume).sum = (fs.map volume).sum := by
  obtain ⟨h1, h2⟩ := sum_filter_bound volume (δ := 0) fs (fun t _ => div_nonneg (abs_nonneg _) (by norm_num)) le_rfl
  rw [mul_zero, add_zero] at h2
  exact le_antisymm h1 h2

theorem region_orient (c : (ℝ × ℝ) × (ℝ × ℝ) × (ℝ × ℝ)) : region (orientCaching c) = region c := by
  unfold orientCaching region
  simp only
  split
  · simp only [Set.pair_comm]
  · rfl

/-- C41 without tolerances: the volumes of the triangles of a cut set add up to the Lebesgue measure of the intersection of
the two elements. The old element may have any orientation. -/
theorem C41_cutset_measure (c e : (ℝ × ℝ) × (ℝ × ℝ) × (ℝ × ℝ)) (he : 0 < side e.1 e.2.1 e.2.2) :
    ((cutSet 0 0 c e).map volume).sum = (MeasureTheory.volume (region c ∩ region e)).toReal := by
  unfold cutSet
  simp only
  rw [sum_filter_pos, C41_fan_volume (clip_position le_rfl (triangle_cases _ _ _) _)]
  have h := C41_measure (clip_position (le_refl (0 : ℝ)) (triangle_cases (orientCaching c).1 (orientCaching c).2.1 (orientCaching c).2.2) [e.1, e.2.1, e.2.2])
  rw [← region_orient c, region_eq, region_eq, ← C40_triangles _ _ _ _ _ _ he]
  change leb (hull _) = _ at h
  rw [h, ENNReal.toReal_ofReal (abs_nonneg _)]

theorem clipEdge_length (ε : ℝ) (l : List (ℝ × ℝ)) (q : (ℝ × ℝ) × (ℝ × ℝ)) : (clipEdge ε l q).length ≤ 2 * l.length := by
  unfold clipEdge
  have key : ∀ es : List ((ℝ × ℝ) × (ℝ × ℝ)), (es.flatMap (clipOne ε q.1 q.2)).length ≤ 2 * es.length := by
    intro es
    induction es with
    | nil => simp
    | cons e es ih =>
      rw [List.flatMap_cons, List.length_append, List.length_cons]
      have : (clipOne ε q.1 q.2 e).length ≤ 2 := by
        unfold clipOne
        simp only
        split_ifs <;> simp
      omega
  have h := key (edges l)
  have he : (edges l).length = l.length := by simp [edges]
  rwa [he] at h

theorem sutherlandHodgman_length (ε : ℝ) (a b c u v w : ℝ × ℝ) : (sutherlandHodgman ε [a, b, c] [u, v, w]).length ≤ 24 := by
  have he : edges [u, v, w] = [(u, v), (v, w), (w, u)] := rfl
  unfold sutherlandHodgman
  rw [he]
  simp only [List.foldl_cons, List.foldl_nil]
  have h1 := clipEdge_length ε [a, b, c] (u, v)
  have h2 := clipEdge_length ε (clipEdge ε [a, b, c] (u, v)) (v, w)
  have h3 := clipEdge_length ε (clipEdge ε (clipEdge ε [a, b, c] (u, v)) (v, w)) (w, u)
  simp only [List.length_cons, List.length_nil] at h1
  omega

/-- C41 with tolerances: the volumes add up to at most the measure of what is in the old element and, up to `ε`, to the left
of the edges of the new one, and to at least the measure of what is by `ε` to the left of the edges, less `24 δ`. -/
theorem C41_cutset_tolerance {ε δ : ℝ} (hε : 0 ≤ ε) (hδ : 0 ≤ δ) (c e : (ℝ × ℝ) × (ℝ × ℝ) × (ℝ × ℝ)) :
    ((cutSet ε δ c e).map volume).sum ≤ (MeasureTheory.volume {x | x ∈ region c ∧ LeftOfAll (-ε) [e.1, e.2.1, e.2.2] x}).toReal ∧
    (MeasureTheory.volume {x | x ∈ region c ∧ LeftOfAll ε [e.1, e.2.1, e.2.2] x}).toReal ≤ ((cutSet ε δ c e).map volume).sum + 24 * δ := by
  have hpos := triangle_cases (orientCaching c).1 (orientCaching c).2.1 (orientCaching c).2.2
  have hcl := clip_position hε hpos [e.1, e.2.1, e.2.2]
  have hm : leb (hull _) = _ := C41_measure hcl
  obtain ⟨h1, h2⟩ := sum_filter_bound volume (fan (sutherlandHodgman ε [(orientCaching c).1, (orientCaching c).2.1, (orientCaching c).2.2] [e.1, e.2.1, e.2.2]))
    (fun t _ => div_nonneg (abs_nonneg _) (by norm_num)) hδ
  have hlen : (fan (sutherlandHodgman ε [(orientCaching c).1, (orientCaching c).2.1, (orientCaching c).2.2] [e.1, e.2.1, e.2.2])).length ≤ 24 := by
    refine le_trans ?_ (sutherlandHodgman_length ε (orientCaching c).1 (orientCaching c).2.1 (orientCaching c).2.2 e.1 e.2.1 e.2.2)
    generalize sutherlandHodgman ε _ _ = l
    cases l with
    | nil => simp [fan]
    | cons p l => simp [fan]; omega
  have hlen' : ((fan (sutherlandHodgman ε [(orientCaching c).1, (orientCaching c).2.1, (orientCaching c).2.2] [e.1, e.2.1, e.2.2])).length : ℝ) * δ ≤ 24 * δ :=
    mul_le_mul_of_nonneg_right (by exact_mod_cast hlen) hδ
  rw [C41_fan_volume hcl] at h1 h2
  have hreal := congrArg ENNReal.toReal hm
  rw [ENNReal.toReal_ofReal (abs_nonneg _)] at hreal
  have hfin : ∀ s : Set (ℝ × ℝ), s ⊆ region c → leb s ≠ ⊤ := fun s hs => ne_top_of_le_ne_top (region_ne_top c) (measure_mono hs)
  constructor
  · refine h1.trans ?_
    rw [← hreal]
    refine ENNReal.toReal_mono (hfin _ fun x hx => hx.1) (measure_mono ?_)
    intro x hx
    obtain ⟨k1, k2⟩ := C40_inside hε _ _ x hx
    refine ⟨?_, k2⟩
    rw [← region_orient, region_eq]
    exact k1
  · refine le_trans ?_ (h2.trans (add_le_add le_rfl hlen'))
    rw [← hreal]
    refine ENNReal.toReal_mono (measure_hull_ne_top _) (measure_mono ?_)
    rintro x ⟨k1, k2⟩
    refine C40_kept hε hpos _ x ?_ k2
    rw [← region_orient, region_eq] at k1
    exact k1

/-- The two triangles that overlap in a hexagon. -/
example : (MeasureTheory.volume (region ((0, 0), (6, 0), (3, 6)) ∩ region ((0, 4), (3, -2), (6, 4)))).toReal = 12 := by
  rw [← C41_cutset_measure _ _ (by norm_num [side])]
  have h : cutSet (0 : ℝ) 0 ((0, 0), (6, 0), (3, 6)) ((0, 4), (3, -2), (6, 4)) = [((5, 2), (4, 4), (2, 4)), ((5, 2), (2, 4), (1, 2)), ((5, 2), (1, 2), (2, 0)), ((5, 2), (2, 0), (4, 0))] := by
    norm_num [cutSet, orientCaching, sutherlandHodgman, edges, clipEdge, clipOne, pos, lineIntersection, fan, volume, List.rotate, abs_of_pos, abs_of_neg]
  rw [h]
  norm_num [volume, abs_of_pos, abs_of_neg]

/-! ## C80: the intersection volume -/

/-- C80: without tolerance it is the Lebesgue measure of the intersection of the two triangles, for every old triangle (in
any orientation, also degenerate) and every counter-clockwise new one. -/
theorem C80_measure (c e : (ℝ × ℝ) × (ℝ × ℝ) × (ℝ × ℝ)) (he : 0 < side e.1 e.2.1 e.2.2) :
    intersectionVolume 0 c e = (MeasureTheory.volume (region c ∩ region e)).toReal := by
  have h : leb (hull _) = _ := C41_measure (clip_position (le_refl (0 : ℝ)) (triangle_cases c.1 c.2.1 c.2.2) [e.1, e.2.1, e.2.2])
  rw [region_eq, region_eq, ← C40_triangles _ _ _ _ _ _ he, intersectionVolume]
  change _ = (leb _).toReal
  rw [h, ENNReal.toReal_ofReal (abs_nonneg _)]

/-- C80 with the tolerance of the clipping. -/
theorem C80_tolerance {ε : ℝ} (hε : 0 ≤ ε) (c e : (ℝ × ℝ) × (ℝ × ℝ) × (ℝ × ℝ)) :
    intersectionVolume ε c e ≤ (MeasureTheory.volume {x | x ∈ region c ∧ LeftOfAll (-ε) [e.1, e.2.1, e.2.2] x}).toReal ∧
    (MeasureTheory.volume {x | x ∈ region c ∧ LeftOfAll ε [e.1, e.2.1, e.2.2] x}).toReal ≤ intersectionVolume ε c e := by
  have hpos := triangle_cases c.1 c.2.1 c.2.2
  have hm : leb (hull _) = _ := C41_measure (clip_position hε hpos [e.1, e.2.1, e.2.2])
  have hreal := congrArg ENNReal.toReal hm
  rw [ENNReal.toReal_ofReal (abs_nonneg _)] at hreal
  have hfin : ∀ s : Set (ℝ × ℝ), s ⊆ region c → leb s ≠ ⊤ := fun s hs => ne_top_of_le_ne_top (region_ne_top c) (measure_mono hs)
  unfold intersectionVolume
  rw [← hreal]
  constructor
  · refine ENNReal.toReal_mono (hfin _ fun x hx => hx.1) (measure_mono ?_)
    intro x hx
    obtain ⟨k1, k2⟩ := C40_inside hε _ _ x hx
    refine ⟨?_, k2⟩
    rw [region_eq]
    exact k1
  · refine ENNReal.toReal_mono (measure_hull_ne_top _) (measure_mono ?_)
    rintro x ⟨k1, k2⟩
    refine C40_kept hε hpos _ x ?_ k2
    rw [region_eq] at k1
    exact k1

/-- Measures of the parts of a set cut out by sets that cover it and overlap in null sets only. -/
theorem sum_parts {ts : List ((ℝ × ℝ) × (ℝ × ℝ) × (ℝ × ℝ))} (hd : ts.Pairwise fun s t => leb (region s ∩ region t) = 0)
    {A : Set (ℝ × ℝ)} (hA' : MeasurableSet A) (hA : leb A ≠ ⊤) (hcov : leb (A \ ⋃ t ∈ ts, region t) = 0) :
    (ts.map fun t => (leb (A ∩ region t)).toReal).sum = (leb A).toReal := by
  have key : ∀ (ts : List ((ℝ × ℝ) × (ℝ × ℝ) × (ℝ × ℝ))), (ts.Pairwise fun s t => leb (region s ∩ region t) = 0) →
      (ts.map fun t => (leb (A ∩ region t)).toReal).sum = (leb (A ∩ ⋃ t ∈ ts, region t)).toReal := by
    intro ts
    induction ts with
    | nil => intro _; simp
    | cons s ts ih =>
      intro hd
      rw [List.pairwise_cons] at hd
      rw [List.map_cons, List.sum_cons, ih hd.2, ← ENNReal.toReal_add]
      · congr 1
        have e : A ∩ ⋃ t ∈ s :: ts, region t = (A ∩ region s) ∪ (A ∩ ⋃ t ∈ ts, region t) := by
          rw [← Set.inter_union_distrib_left]
          congr 1
          ext x
          simp
        rw [e]
        symm
        refine measure_union₀ ?_ ?_
        · refine (hA'.inter ?_).nullMeasurableSet
          exact MeasurableSet.biUnion (ts.finite_toSet.countable) fun t _ => measurable_region t
        · refine measure_mono_null (t := ⋃ t ∈ ts, region s ∩ region t) ?_ ?_
          · rintro x ⟨⟨_, h1⟩, ⟨_, h2⟩⟩
            simp only [Set.mem_iUnion] at h2 ⊢
            obtain ⟨t, ht, h2⟩ := h2
            exact ⟨t, ht, h1, h2⟩
          · exact (measure_biUnion_null_iff ts.finite_toSet.countable).2 hd.1
      · exact ne_top_of_le_ne_top hA (measure_mono Set.inter_subset_left)
      · exact ne_top_of_le_ne_top hA (measure_mono Set.inter_subset_left)
  rw [key ts hd]
  congr 1
  refine le_antisymm (measure_mono Set.inter_subset_left) ?_
  calc leb A ≤ leb ((A ∩ ⋃ t ∈ ts, region t) ∪ (A \ ⋃ t ∈ ts, region t)) := measure_mono (by rw [Set.inter_union_sdiff])
    _ ≤ _ := measure_union_le _ _
    _ = _ := by rw [hcov, add_zero]

/-- C80: the intersection volumes of an element with old elements that cover it and do not overlap add up to its volume. -/
theorem C80_partition {olds : List ((ℝ × ℝ) × (ℝ × ℝ) × (ℝ × ℝ))} {e : (ℝ × ℝ) × (ℝ × ℝ) × (ℝ × ℝ)} (he : 0 < side e.1 e.2.1 e.2.2)
    (hd : olds.Pairwise fun s t => MeasureTheory.volume (region s ∩ region t) = 0) (hcov : region e ⊆ ⋃ o ∈ olds, region o) :
    (olds.map fun o => intersectionVolume 0 o e).sum = (MeasureTheory.volume (region e)).toReal := by
  rw [← sum_parts hd (measurable_region e) (region_ne_top e) (by rw [Set.sdiff_eq_empty.2 hcov, measure_empty])]
  congr 1
  refine List.map_congr_left fun o _ => ?_
  rw [C80_measure o e he, Set.inter_comm]

/-- A square cut along one diagonal before and along the other one afterwards. -/
example : ((([((0, 0), (2, 0), (2, 2)), ((0, 0), (2, 2), (0, 2))] : List ((ℝ × ℝ) × (ℝ × ℝ) × (ℝ × ℝ))).map fun o => intersectionVolume 0 o ((0, 0), (2, 0), (0, 2)))) = [1, 1] := by
  norm_num [intersectionVolume, polygonArea, sutherlandHodgman, edges, clipEdge, clipOne, pos, lineIntersection, List.rotate, abs_of_pos, abs_of_neg]

end Verif.Clip
