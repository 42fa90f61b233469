import Mathlib.Analysis.Convex.Hull
import Mathlib.Analysis.Convex.Join
import Mathlib.Tactic.Ring
import Mathlib.Tactic.Linarith
import Mathlib.Tactic.FieldSimp
import Mathlib.Tactic.LinearCombination
import Verif.Clip.Model

/-!
# Clipping of polygons: proofs
-/

namespace Verif.Clip

set_option linter.unusedSectionVars false

variable {K : Type} [Field K] [LinearOrder K] [IsStrictOrderedRing K]

/-! ## Specification vocabulary -/

/-- Twice the signed area of the triangle `a`, `b`, `p`: positive if `p` is to the left of the line from `a` to `b`. -/
def side (a b p : K × K) : K := (b.1 - a.1) * (p.2 - a.2) - (b.2 - a.2) * (p.1 - a.1)

/-- The convex hull of the points of a list (Mathlib's convex hull). -/
def hull (l : List (K × K)) : Set (K × K) := convexHull K {p | p ∈ l}

/-- The points of the list are in convex position, in this cyclic order: counter-clockwise if `σ > 0`, clockwise if
`σ < 0`. -/
def Convex3 (σ : K) : List (K × K) → Prop
  | [] => True
  | a :: l => l.Pairwise (fun b c => 0 ≤ σ * side a b c) ∧ Convex3 σ l

/-! ## Lines -/

theorem pos_eq (q1 q2 p : K × K) : pos q1 q2 p = -side q1 q2 p := by simp only [pos, side]; ring

theorem pos_affine (q1 q2 : K × K) {a b : K} (h : a + b = 1) (x y : K × K) :
    pos q1 q2 (a • x + b • y) = a * pos q1 q2 x + b * pos q1 q2 y := by
  simp only [pos, Prod.fst_add, Prod.snd_add, Prod.smul_fst, Prod.smul_snd, smul_eq_mul]
  have : b = 1 - a := by linear_combination h
  subst this
  ring

theorem side_affine1 {a b : K} (h : a + b = 1) (x y u v : K × K) :
    side (a • x + b • y) u v = a * side x u v + b * side y u v := by
  simp only [side, Prod.fst_add, Prod.snd_add, Prod.smul_fst, Prod.smul_snd, smul_eq_mul]
  have : b = 1 - a := by linear_combination h
  subst this
  ring

theorem side_cycle (a b c : K × K) : side b c a = side a b c := by simp only [side]; ring

theorem side_swap (a b c : K × K) : side a c b = -side a b c := by simp only [side]; ring

theorem side_affine2 {a b : K} (h : a + b = 1) (x y u v : K × K) :
    side u (a • x + b • y) v = a * side u x v + b * side u y v := by
  simp only [side, Prod.fst_add, Prod.snd_add, Prod.smul_fst, Prod.smul_snd, smul_eq_mul]
  have : b = 1 - a := by linear_combination h
  subst this
  ring

theorem side_affine3 {a b : K} (h : a + b = 1) (x y u v : K × K) :
    side u v (a • x + b • y) = a * side u v x + b * side u v y := by
  simp only [side, Prod.fst_add, Prod.snd_add, Prod.smul_fst, Prod.smul_snd, smul_eq_mul]
  have : b = 1 - a := by linear_combination h
  subst this
  ring

theorem side_self1 (a b : K × K) : side a a b = 0 := by simp [side]
theorem side_self2 (a b : K × K) : side a b b = 0 := by simp only [side]; ring
theorem side_self3 (a b : K × K) : side a b a = 0 := by simp [side]

/-- The intersection point as a combination of the end points. -/
theorem lineIntersection_eq {p1 p2 q1 q2 : K × K} (h : pos q1 q2 p1 ≠ pos q1 q2 p2) :
    lineIntersection p1 p2 q1 q2 = (pos q1 q2 p2 / (pos q1 q2 p2 - pos q1 q2 p1)) • p1 + (-pos q1 q2 p1 / (pos q1 q2 p2 - pos q1 q2 p1)) • p2 := by
  have hd : pos q1 q2 p2 - pos q1 q2 p1 ≠ 0 := fun e => h (sub_eq_zero.1 e).symm
  have hs : (p1.1 - p2.1) * (q1.2 - q2.2) - (q1.1 - q2.1) * (p1.2 - p2.2) = pos q1 q2 p2 - pos q1 q2 p1 := by
    simp only [pos]; ring
  simp only [lineIntersection, hs]
  ext
  · simp only [Prod.fst_add, Prod.smul_fst, smul_eq_mul]
    field_simp
    simp only [pos]; ring
  · simp only [Prod.snd_add, Prod.smul_snd, smul_eq_mul]
    field_simp
    simp only [pos]; ring

/-- The point at level `κ` on the way from `y` to `z`. -/
def cr (q1 q2 : K × K) (κ : K) (y z : K × K) : K × K :=
  ((pos q1 q2 z - κ) / (pos q1 q2 z - pos q1 q2 y)) • y + ((κ - pos q1 q2 y) / (pos q1 q2 z - pos q1 q2 y)) • z

theorem cr_sum {q1 q2 y z : K × K} (κ : K) (h : pos q1 q2 y ≠ pos q1 q2 z) :
    (pos q1 q2 z - κ) / (pos q1 q2 z - pos q1 q2 y) + (κ - pos q1 q2 y) / (pos q1 q2 z - pos q1 q2 y) = 1 := by
  have hd : pos q1 q2 z - pos q1 q2 y ≠ 0 := fun e => h (sub_eq_zero.1 e).symm
  field_simp
  ring

theorem pos_cr {q1 q2 y z : K × K} (κ : K) (h : pos q1 q2 y ≠ pos q1 q2 z) : pos q1 q2 (cr q1 q2 κ y z) = κ := by
  have hd : pos q1 q2 z - pos q1 q2 y ≠ 0 := fun e => h (sub_eq_zero.1 e).symm
  rw [cr, pos_affine _ _ (cr_sum κ h)]
  field_simp
  ring

theorem cr_segment {q1 q2 y z : K × K} {κ : K} (h1 : pos q1 q2 y ≤ κ) (h2 : κ < pos q1 q2 z) :
    cr q1 q2 κ y z ∈ segment K y z := by
  have hd : 0 < pos q1 q2 z - pos q1 q2 y := by linarith
  exact ⟨_, _, div_nonneg (by linarith) hd.le, div_nonneg (by linarith) hd.le, cr_sum κ (by intro e; linarith), rfl⟩

theorem frac_swap (a b c : K) : (a - b) / (a - c) = (b - a) / (c - a) := by
  rw [← neg_sub b a, ← neg_sub c a, neg_div_neg_eq]

theorem frac_swap2 (a b c : K) : (a - b) / (c - b) = (b - a) / (b - c) := by
  rw [← neg_sub b a, ← neg_sub b c, neg_div_neg_eq]

theorem cr_swap (q1 q2 : K × K) (κ : K) (y z : K × K) : cr q1 q2 κ z y = cr q1 q2 κ y z := by
  unfold cr
  rw [add_comm, frac_swap (pos q1 q2 y), frac_swap2 κ]

theorem lineIntersection_cr {p1 p2 q1 q2 : K × K} (h : pos q1 q2 p1 ≠ pos q1 q2 p2) :
    lineIntersection p1 p2 q1 q2 = cr q1 q2 0 p1 p2 := by
  rw [lineIntersection_eq h, cr, sub_zero, zero_sub]

/-- Two affine functions that are independent determine the point. -/
theorem eq_of_pos_side {q1 q2 y z : K × K} (h : pos q1 q2 y ≠ pos q1 q2 z) {a b : K × K} (h1 : pos q1 q2 a = pos q1 q2 b)
    (h2 : side y z a = side y z b) : a = b := by
  have hd : pos q1 q2 z - pos q1 q2 y ≠ 0 := fun e => h (sub_eq_zero.1 e).symm
  have e1 : (pos q1 q2 z - pos q1 q2 y) * (a.1 - b.1) = 0 := by
    simp only [pos, side] at h1 h2 ⊢
    linear_combination (z.1 - y.1) * h1 + (q2.1 - q1.1) * h2
  have e2 : (pos q1 q2 z - pos q1 q2 y) * (a.2 - b.2) = 0 := by
    simp only [pos, side] at h1 h2 ⊢
    linear_combination (z.2 - y.2) * h1 + (q2.2 - q1.2) * h2
  ext
  · exact sub_eq_zero.1 ((mul_eq_zero.1 e1).resolve_left hd)
  · exact sub_eq_zero.1 ((mul_eq_zero.1 e2).resolve_left hd)

/-- On the line at level `κ`, the point on the line through `y` and `z` lies between a point to the right and a point to the
left of this line. -/
theorem cr_between {q1 q2 y z a b : K × K} {κ : K} (h : pos q1 q2 y ≠ pos q1 q2 z) (ha : pos q1 q2 a = κ)
    (hb : pos q1 q2 b = κ) (ga : side y z a ≤ 0) (gb : 0 ≤ side y z b) : cr q1 q2 κ y z ∈ segment K a b := by
  have hc : side y z (cr q1 q2 κ y z) = 0 := by
    rw [cr, side_affine3 (cr_sum κ h), side_self2, side_self3]; ring
  by_cases h0 : side y z a = 0
  · have : cr q1 q2 κ y z = a := eq_of_pos_side h (by rw [pos_cr κ h, ha]) (by rw [hc, h0])
    rw [this]
    exact left_mem_segment K a b
  · have hd : 0 < side y z b - side y z a := by
      have := lt_of_le_of_ne ga h0
      linarith
    refine ⟨side y z b / (side y z b - side y z a), -side y z a / (side y z b - side y z a), div_nonneg gb hd.le,
      div_nonneg (by linarith) hd.le, by field_simp; ring, ?_⟩
    have hs : side y z b / (side y z b - side y z a) + -side y z a / (side y z b - side y z a) = 1 := by field_simp; ring
    refine (eq_of_pos_side h ?_ ?_)
    · rw [pos_cr κ h, pos_affine _ _ hs, ha, hb, ← add_mul, hs, one_mul]
    · rw [hc, side_affine3 hs]
      field_simp
      ring

/-! ## Hulls -/

theorem mem_hull {l : List (K × K)} {p : K × K} (h : p ∈ l) : p ∈ hull l := subset_convexHull K _ h

theorem hull_min {l : List (K × K)} {s : Set (K × K)} (hs : Convex K s) (h : ∀ p ∈ l, p ∈ s) : hull l ⊆ s :=
  convexHull_min h hs

theorem convex_hull (l : List (K × K)) : Convex K (hull l) := convex_convexHull K _

theorem hull_segment {l : List (K × K)} {a b x : K × K} (ha : a ∈ hull l) (hb : b ∈ hull l) (hx : x ∈ segment K a b) : x ∈ hull l :=
  (convex_hull l).segment_subset ha hb hx

theorem convex_le (q1 q2 : K × K) (κ : K) : Convex K {x | pos q1 q2 x ≤ κ} := by
  intro x hx y hy a b ha hb hab
  simp only [Set.mem_setOf_eq] at hx hy ⊢
  rw [pos_affine _ _ hab]
  have : a * κ + b * κ = κ := by rw [← add_mul, hab, one_mul]
  nlinarith [mul_le_mul_of_nonneg_left hx ha, mul_le_mul_of_nonneg_left hy hb]

theorem convex_gt (q1 q2 : K × K) (κ : K) : Convex K {x | κ < pos q1 q2 x} := by
  intro x hx y hy a b ha hb hab
  simp only [Set.mem_setOf_eq] at hx hy ⊢
  rw [pos_affine _ _ hab]
  have h1 : a * κ + b * κ = κ := by rw [← add_mul, hab, one_mul]
  rcases ha.eq_or_lt with rfl | ha'
  · have : b = 1 := by linarith
    subst this; linarith
  · have := mul_lt_mul_of_pos_left hx ha'
    have := mul_le_mul_of_nonneg_left hy.le hb
    linarith

/-- A crossing of two segments with the same end point. -/
theorem cr_combine {q1 q2 y y' z : K × K} {κ : K} {a b : K} (ha : 0 ≤ a) (hb : 0 ≤ b) (hab : a + b = 1)
    (h1 : pos q1 q2 y ≤ κ) (h2 : pos q1 q2 y' ≤ κ) (h3 : κ < pos q1 q2 z) :
    cr q1 q2 κ (a • y + b • y') z ∈ segment K (cr q1 q2 κ y z) (cr q1 q2 κ y' z) := by
  have d1 : 0 < pos q1 q2 z - pos q1 q2 y := by linarith
  have d2 : 0 < pos q1 q2 z - pos q1 q2 y' := by linarith
  have hp := pos_affine q1 q2 hab y y'
  have hd : pos q1 q2 z - pos q1 q2 (a • y + b • y') = a * (pos q1 q2 z - pos q1 q2 y) + b * (pos q1 q2 z - pos q1 q2 y') := by
    rw [hp]; linear_combination (-pos q1 q2 z) * hab
  have d3 : 0 < a * (pos q1 q2 z - pos q1 q2 y) + b * (pos q1 q2 z - pos q1 q2 y') := by
    rw [← hd]
    have := convex_le q1 q2 κ h1 h2 ha hb hab
    simp only [Set.mem_setOf_eq] at this
    linarith
  refine ⟨a * (pos q1 q2 z - pos q1 q2 y) / (a * (pos q1 q2 z - pos q1 q2 y) + b * (pos q1 q2 z - pos q1 q2 y')),
    b * (pos q1 q2 z - pos q1 q2 y') / (a * (pos q1 q2 z - pos q1 q2 y) + b * (pos q1 q2 z - pos q1 q2 y')),
    div_nonneg (mul_nonneg ha d1.le) d3.le, div_nonneg (mul_nonneg hb d2.le) d3.le, by field_simp, ?_⟩
  have hb' : b = 1 - a := by linear_combination hab
  unfold cr
  rw [hd, hp]
  have n1 := d1.ne'
  have n2 := d2.ne'
  have n3 := d3.ne'
  ext
  · simp only [Prod.fst_add, Prod.smul_fst, smul_eq_mul]
    field_simp
    subst hb'
    ring
  · simp only [Prod.snd_add, Prod.smul_snd, smul_eq_mul]
    field_simp
    subst hb'
    ring

theorem cr_combine' {q1 q2 y z z' : K × K} {κ : K} {a b : K} (ha : 0 ≤ a) (hb : 0 ≤ b) (hab : a + b = 1)
    (h1 : pos q1 q2 y ≤ κ) (h2 : κ < pos q1 q2 z) (h3 : κ < pos q1 q2 z') :
    cr q1 q2 κ y (a • z + b • z') ∈ segment K (cr q1 q2 κ y z) (cr q1 q2 κ y z') := by
  have d1 : 0 < pos q1 q2 z - pos q1 q2 y := by linarith
  have d2 : 0 < pos q1 q2 z' - pos q1 q2 y := by linarith
  have hp := pos_affine q1 q2 hab z z'
  have hd : pos q1 q2 (a • z + b • z') - pos q1 q2 y = a * (pos q1 q2 z - pos q1 q2 y) + b * (pos q1 q2 z' - pos q1 q2 y) := by
    rw [hp]; linear_combination (pos q1 q2 y) * hab
  have d3 : 0 < a * (pos q1 q2 z - pos q1 q2 y) + b * (pos q1 q2 z' - pos q1 q2 y) := by
    rw [← hd]
    have := convex_gt q1 q2 κ h2 h3 ha hb hab
    simp only [Set.mem_setOf_eq] at this
    linarith
  refine ⟨a * (pos q1 q2 z - pos q1 q2 y) / (a * (pos q1 q2 z - pos q1 q2 y) + b * (pos q1 q2 z' - pos q1 q2 y)),
    b * (pos q1 q2 z' - pos q1 q2 y) / (a * (pos q1 q2 z - pos q1 q2 y) + b * (pos q1 q2 z' - pos q1 q2 y)),
    div_nonneg (mul_nonneg ha d1.le) d3.le, div_nonneg (mul_nonneg hb d2.le) d3.le, by field_simp, ?_⟩
  have hb' : b = 1 - a := by linear_combination hab
  unfold cr
  rw [hd, hp]
  have n1 := d1.ne'
  have n2 := d2.ne'
  have n3 := d3.ne'
  ext
  · simp only [Prod.fst_add, Prod.smul_fst, smul_eq_mul]
    field_simp
    subst hb'
    ring
  · simp only [Prod.snd_add, Prod.smul_snd, smul_eq_mul]
    field_simp
    subst hb'
    ring

/-- The part of a hull below a level is contained in a convex set that contains the points below the level and all
crossings of pairs. -/
theorem hull_below {q1 q2 : K × K} {κ : K} {l : List (K × K)} {C : Set (K × K)} (hC : Convex K C)
    (hin : ∀ y ∈ l, pos q1 q2 y ≤ κ → y ∈ C)
    (hcr : ∀ y ∈ l, ∀ z ∈ l, pos q1 q2 y ≤ κ → κ < pos q1 q2 z → cr q1 q2 κ y z ∈ C) {x : K × K} (hx : x ∈ hull l)
    (hp : pos q1 q2 x ≤ κ) : x ∈ C := by
  by_cases h1 : ∀ z ∈ l, pos q1 q2 z ≤ κ
  · exact hull_min hC (fun p hp => hin p hp (h1 p hp)) hx
  by_cases h2 : ∀ z ∈ l, κ < pos q1 q2 z
  · have := hull_min (convex_gt q1 q2 κ) h2 hx
    simp only [Set.mem_setOf_eq] at this
    linarith
  push Not at h1 h2
  obtain ⟨z0, hz0, hz0'⟩ := h1
  obtain ⟨y0, hy0, hy0'⟩ := h2
  set I : Set (K × K) := {p | p ∈ l ∧ pos q1 q2 p ≤ κ}
  set O : Set (K × K) := {p | p ∈ l ∧ κ < pos q1 q2 p}
  have hl : {p | p ∈ l} = I ∪ O := by
    ext p
    simp only [Set.mem_setOf_eq, Set.mem_union, I, O]
    rcases le_or_gt (pos q1 q2 p) κ with h | h
    · simp [h]
    · simp [h]
  have hI : I.Nonempty := ⟨y0, hy0, hy0'⟩
  have hO : O.Nonempty := ⟨z0, hz0, hz0'⟩
  unfold hull at hx
  rw [hl, convexHull_union hI hO, mem_convexJoin] at hx
  obtain ⟨y, hy, z, hz, hx⟩ := hx
  have hyle : pos q1 q2 y ≤ κ := convexHull_min (fun p (hp : p ∈ I) => hp.2) (convex_le q1 q2 κ) hy
  have hzgt : κ < pos q1 q2 z := convexHull_min (fun p (hp : p ∈ O) => hp.2) (convex_gt q1 q2 κ) hz
  have hyC : y ∈ C := convexHull_min (fun p (hp : p ∈ I) => hin p hp.1 hp.2) hC hy
  have step1 : ∀ z ∈ O, ∀ y ∈ convexHull K I, cr q1 q2 κ y z ∈ C := by
    intro z hz y hy
    have hconv : Convex K {y | pos q1 q2 y ≤ κ ∧ cr q1 q2 κ y z ∈ C} := by
      intro y1 h1 y2 h2 a b ha hb hab
      refine ⟨convex_le q1 q2 κ h1.1 h2.1 ha hb hab, ?_⟩
      exact hC.segment_subset h1.2 h2.2 (cr_combine ha hb hab h1.1 h2.1 hz.2)
    have hsub : I ⊆ {y | pos q1 q2 y ≤ κ ∧ cr q1 q2 κ y z ∈ C} := fun p hp => ⟨hp.2, hcr p hp.1 z hz.1 hp.2 hz.2⟩
    exact (convexHull_min hsub hconv hy).2
  have step2 : cr q1 q2 κ y z ∈ C := by
    have hconv : Convex K {z | κ < pos q1 q2 z ∧ cr q1 q2 κ y z ∈ C} := by
      intro z1 h1 z2 h2 a b ha hb hab
      refine ⟨convex_gt q1 q2 κ h1.1 h2.1 ha hb hab, ?_⟩
      exact hC.segment_subset h1.2 h2.2 (cr_combine' ha hb hab hyle h1.1 h2.1)
    have hsub : O ⊆ {z | κ < pos q1 q2 z ∧ cr q1 q2 κ y z ∈ C} := fun p hp => ⟨hp.2, step1 p hp y hy⟩
    exact (convexHull_min hsub hconv hz).2
  -- the point lies between y and the crossing
  obtain ⟨a, b, ha, hb, hab, rfl⟩ := hx
  rw [pos_affine _ _ hab] at hp
  have hd : 0 < pos q1 q2 z - pos q1 q2 y := by linarith
  rcases hyle.eq_or_lt with he | hlt
  · -- y is at the level: the point is y
    have : b = 0 := by
      rcases hb.eq_or_lt with h | h
      · exact h.symm
      · exfalso
        have h5 : a = 1 - b := by linear_combination hab
        subst h5
        have := mul_pos h hd
        nlinarith
    subst this
    have : a = 1 := by linarith
    subst this
    simpa using hyC
  · have hs : 0 < κ - pos q1 q2 y := by linarith
    have hle : b * (pos q1 q2 z - pos q1 q2 y) ≤ κ - pos q1 q2 y := by
      have h5 : a = 1 - b := by linear_combination hab
      subst h5
      linarith
    refine hC.segment_subset hyC step2 ⟨1 - b * (pos q1 q2 z - pos q1 q2 y) / (κ - pos q1 q2 y),
      b * (pos q1 q2 z - pos q1 q2 y) / (κ - pos q1 q2 y), ?_, div_nonneg (mul_nonneg hb hd.le) hs.le, by ring, ?_⟩
    · rw [sub_nonneg, div_le_one hs]; exact hle
    · have n1 := hd.ne'
      have n2 := hs.ne'
      have h5 : a = 1 - b := by linear_combination hab
      unfold cr
      ext
      · simp only [Prod.fst_add, Prod.smul_fst, smul_eq_mul]
        field_simp
        subst h5
        ring
      · simp only [Prod.snd_add, Prod.smul_snd, smul_eq_mul]
        field_simp
        subst h5
        ring

/-! ## Convex position -/

theorem convex3_sublist {σ : K} {l l' : List (K × K)} (h : l'.Sublist l) : Convex3 σ l → Convex3 σ l' := by
  induction h with
  | slnil => exact id
  | cons a _ ih => exact fun hc => ih hc.2
  | cons_cons a hs ih => exact fun hc => ⟨hc.1.sublist hs, ih hc.2⟩

theorem convex3_triple {σ : K} {l : List (K × K)} (hc : Convex3 σ l) {a b c : K × K} (h : [a, b, c].Sublist l) :
    0 ≤ σ * side a b c := by
  have := convex3_sublist h hc
  simpa [Convex3] using this

theorem convex3_snoc {σ : K} {l : List (K × K)} {z : K × K} :
    Convex3 σ (l ++ [z]) ↔ Convex3 σ l ∧ l.Pairwise (fun b c => 0 ≤ σ * side b c z) := by
  induction l with
  | nil => simp [Convex3]
  | cons a l ih =>
    simp only [List.cons_append, Convex3, ih, List.pairwise_append, List.pairwise_cons, List.mem_singleton]
    constructor
    · rintro ⟨⟨h1, _, h2⟩, h3, h4⟩
      exact ⟨⟨h1, h3⟩, fun b hb => h2 b hb z rfl, h4⟩
    · rintro ⟨⟨h1, h3⟩, h2, h4⟩
      exact ⟨⟨h1, by simp, fun b hb w hw => hw ▸ h2 b hb⟩, h3, h4⟩

theorem convex3_rotate1 {σ : K} {a : K × K} {l : List (K × K)} (h : Convex3 σ (a :: l)) : Convex3 σ (l ++ [a]) := by
  rw [convex3_snoc]
  refine ⟨h.2, h.1.imp ?_⟩
  intro b c hbc
  rwa [side_cycle]

theorem convex3_rotate {σ : K} {A B : List (K × K)} (h : Convex3 σ (A ++ B)) : Convex3 σ (B ++ A) := by
  induction A generalizing B with
  | nil => simpa using h
  | cons a A ih =>
    have := convex3_rotate1 (a := a) (l := A ++ B) (by simpa using h)
    rw [List.append_assoc] at this
    have := ih this
    simpa using this

/-- The first point may be repeated at the end. -/
theorem convex3_close {σ : K} {a : K × K} {l : List (K × K)} (h : Convex3 σ (a :: l)) : Convex3 σ (a :: (l ++ [a])) := by
  refine ⟨?_, convex3_rotate1 h⟩
  rw [List.pairwise_append]
  refine ⟨h.1, by simp, ?_⟩
  intro b _ c hc
  rw [List.mem_singleton.1 hc, side_self3, mul_zero]

theorem pairwise_insert {R : K × K → K × K → Prop} {p c s : K × K} {A B : List (K × K)}
    (hl : ∀ x, R x p → R x s → R x c) (hr : ∀ z, R p z → R s z → R c z) (hpc : R p s → R p c) (hcs : R p s → R c s)
    (h : (A ++ p :: s :: B).Pairwise R) : (A ++ p :: c :: s :: B).Pairwise R := by
  rw [List.pairwise_append] at h ⊢
  obtain ⟨h1, h2, h3⟩ := h
  rw [List.pairwise_cons, List.pairwise_cons] at h2
  obtain ⟨h4, h5, h6⟩ := h2
  have hps : R p s := h4 s (by simp)
  refine ⟨h1, ?_, ?_⟩
  · rw [List.pairwise_cons, List.pairwise_cons, List.pairwise_cons]
    refine ⟨?_, ?_, h5, h6⟩
    · intro z hz
      rcases List.mem_cons.1 hz with rfl | hz
      · exact hpc hps
      · exact h4 z hz
    · intro z hz
      rcases List.mem_cons.1 hz with rfl | hz
      · exact hcs hps
      · exact hr z (h4 z (by simp [hz])) (h5 z hz)
  · intro x hx z hz
    have hxp := h3 x hx p (by simp)
    have hxs := h3 x hx s (by simp)
    rcases List.mem_cons.1 hz with rfl | hz
    · exact hxp
    · rcases List.mem_cons.1 hz with rfl | hz
      · exact hl x hxp hxs
      · exact h3 x hx z (List.mem_cons_of_mem _ hz)

/-- A point of an edge may be inserted between its end points. -/
theorem convex3_insert {σ : K} {p c s : K × K} (hc : c ∈ segment K p s) {A B : List (K × K)}
    (h : Convex3 σ (A ++ p :: s :: B)) : Convex3 σ (A ++ p :: c :: s :: B) := by
  obtain ⟨a, b, ha, hb, hab, rfl⟩ := hc
  have comb : ∀ {u v : K}, 0 ≤ σ * u → 0 ≤ σ * v → 0 ≤ σ * (a * u + b * v) := by
    intro u v hu hv
    have := mul_nonneg ha hu
    have := mul_nonneg hb hv
    nlinarith
  have zero : (0 : K) ≤ σ * 0 := by simp
  induction A with
  | nil =>
    simp only [List.nil_append, Convex3, List.pairwise_cons] at h ⊢
    obtain ⟨⟨h1, h2⟩, h3, h4⟩ := h
    refine ⟨⟨?_, h1, h2⟩, ⟨?_, ?_⟩, h3, h4⟩
    · intro z hz
      rw [side_affine2 hab, side_self1]
      refine comb zero ?_
      rcases List.mem_cons.1 hz with rfl | hz
      · rw [side_self2]; exact zero
      · exact h1 z hz
    · intro z hz
      rw [side_affine1 hab, side_self1]
      exact comb (h1 z hz) zero
    · have hand : B.Pairwise (fun x y => 0 ≤ σ * side p x y ∧ 0 ≤ σ * side s x y) := List.Pairwise.and h2 h3
      refine hand.imp ?_
      intro x y hxy
      rw [side_affine1 hab]
      exact comb hxy.1 hxy.2
  | cons d A ih =>
    simp only [List.cons_append, Convex3] at h ⊢
    refine ⟨pairwise_insert ?_ ?_ ?_ ?_ h.1, ih h.2⟩
    · intro x h1 h2
      rw [side_affine3 hab]; exact comb h1 h2
    · intro z h1 h2
      rw [side_affine2 hab]; exact comb h1 h2
    · intro h1
      rw [side_affine3 hab, side_self2]; exact comb zero h1
    · intro h1
      rw [side_affine2 hab, side_self2]; exact comb h1 zero

end Verif.Clip
