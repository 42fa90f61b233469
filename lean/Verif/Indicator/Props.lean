import Verif.Indicator.Lemmas

/-!
# C44: what the default indicator asks for; C63: halving the longest edge of an element that is to be refined
-/

namespace Verif.Indicator

/-! ## Specification -/

/-- Euclidean distance of two points. -/
noncomputable def dist (p q : Point) : ℝ := Real.sqrt ((p.1 - q.1) ^ 2 + (p.2 - q.2) ^ 2)

/-- The points are not on one line. -/
def NotCollinear (p q r : Point) : Prop := (q.1 - p.1) * (r.2 - p.2) ≠ (r.1 - p.1) * (q.2 - p.2)

/-- The lengths of the edges of a triangle. -/
noncomputable def edges (p q r : Point) : List ℝ := [dist p q, dist p r, dist q r]

/-- `R` is the radius of the circle through the corners. -/
def IsCircumradius (p q r : Point) (R : ℝ) : Prop := ∃ m, dist m p = R ∧ dist m q = R ∧ dist m r = R

/-- `ρ` is the radius of the inscribed circle: the area of the triangle is half the perimeter times `ρ`. -/
def IsInradius (p q r : Point) (ρ : ℝ) : Prop :=
  |(q.1 - p.1) * (r.2 - p.2) - (r.1 - p.1) * (q.2 - p.2)| / 2 = ρ * (edges p q r).sum / 2

/-- The reasons for coarsening a triangle for which edge lengths from `lo` are permitted: an edge that is too short, two
edges whose ratio is more than 4, or the radius of the circumcircle more than 60 times the one of the incircle. -/
def WantsCoarsening (p q r : Point) (lo : ℝ) : Prop :=
  (∃ e ∈ edges p q r, e < lo) ∨ (∃ e ∈ edges p q r, ∃ f ∈ edges p q r, 4 * f < e) ∨
    (∃ R ρ, IsCircumradius p q r R ∧ IsInradius p q r ρ ∧ 60 * ρ < R)

/-- The reason for refining: an edge that is too long. -/
def WantsRefinement (p q r : Point) (hi : ℝ) : Prop := ∃ e ∈ edges p q r, hi < e

/-! ## Geometry of triangles -/

theorem dist_eq (p q : Point) : edgeLength p q = dist p q := rfl

theorem NotCollinear.ne {p q r : Point} (h : NotCollinear p q r) : p ≠ q ∧ p ≠ r ∧ q ≠ r := by
  refine ⟨?_, ?_, ?_⟩ <;> (rintro rfl; apply h; ring)

theorem edges_lengths {p q r : Point} (h : NotCollinear p q r) (hb : ∀ e ∈ edges p q r, e < 10 ^ 100) : Lengths (edges p q r) := by
  refine ⟨by simp [edges], ?_⟩
  intro e he
  refine ⟨?_, hb e he⟩
  obtain ⟨h1, h2, h3⟩ := h.ne
  simp only [edges, List.mem_cons, List.not_mem_nil, or_false] at he
  rcases he with rfl | rfl | rfl
  · exact edgeLength_pos h1
  · exact edgeLength_pos h2
  · exact edgeLength_pos h3

theorem circ_eq {a1 a2 b1 b2 d : ℝ} (hd : d = 2 * (a1 * b2 - b1 * a2)) (h0 : d ≠ 0) :
    2 * ((b2 * (a1 ^ 2 + a2 ^ 2) - a2 * (b1 ^ 2 + b2 ^ 2)) / d * a1 - (b1 * (a1 ^ 2 + a2 ^ 2) - a1 * (b1 ^ 2 + b2 ^ 2)) / d * a2) = a1 ^ 2 + a2 ^ 2 ∧
    2 * ((b2 * (a1 ^ 2 + a2 ^ 2) - a2 * (b1 ^ 2 + b2 ^ 2)) / d * b1 - (b1 * (a1 ^ 2 + a2 ^ 2) - a1 * (b1 ^ 2 + b2 ^ 2)) / d * b2) = b1 ^ 2 + b2 ^ 2 := by
  constructor
  · field_simp
    rw [hd]
    ring
  · field_simp
    rw [hd]
    ring

theorem circ_sq {p q r : Point} {d : ℝ} (hd : d = 2 * ((q.1 - p.1) * (r.2 - p.2) - (r.1 - p.1) * (q.2 - p.2))) (h0 : d ≠ 0) :
    ((circumcenter p q r).1 - p.1) ^ 2 + ((circumcenter p q r).2 - p.2) ^ 2 =
      ((q.1 - r.1) ^ 2 + (q.2 - r.2) ^ 2) * ((p.1 - r.1) ^ 2 + (p.2 - r.2) ^ 2) * ((p.1 - q.1) ^ 2 + (p.2 - q.2) ^ 2) /
        (2 ^ 2 * ((q.1 - p.1) * (r.2 - p.2) - (r.1 - p.1) * (q.2 - p.2)) ^ 2) := by
  unfold circumcenter
  simp only
  rw [← mul_pow, ← hd, add_sub_cancel_left, sub_sub_cancel_left]
  rw [eq_div_iff (pow_ne_zero 2 h0), add_mul, neg_sq, div_pow, div_pow, div_mul_cancel₀ _ (pow_ne_zero 2 h0), div_mul_cancel₀ _ (pow_ne_zero 2 h0)]
  ring

theorem circumcenter_dist {p q r : Point} (h : NotCollinear p q r) :
    dist (circumcenter p q r) q = dist (circumcenter p q r) p ∧ dist (circumcenter p q r) r = dist (circumcenter p q r) p := by
  have hd : (q.1 - p.1) * (r.2 - p.2) - (r.1 - p.1) * (q.2 - p.2) ≠ 0 := sub_ne_zero.2 h
  obtain ⟨e1, e2⟩ := circ_eq (a1 := q.1 - p.1) (a2 := q.2 - p.2) (b1 := r.1 - p.1) (b2 := r.2 - p.2) rfl (mul_ne_zero two_ne_zero hd)
  unfold dist circumcenter
  simp only
  constructor
  · congr 1
    linear_combination -e1
  · congr 1
    linear_combination -e2

theorem circumcenter_unique {p q r m : Point} (h : NotCollinear p q r) (h1 : dist m q = dist m p) (h2 : dist m r = dist m p) :
    m = circumcenter p q r := by
  have hd : (q.1 - p.1) * (r.2 - p.2) - (r.1 - p.1) * (q.2 - p.2) ≠ 0 := sub_ne_zero.2 h
  have e1 : dist m q ^ 2 = dist m p ^ 2 := by rw [h1]
  have e2 : dist m r ^ 2 = dist m p ^ 2 := by rw [h2]
  simp only [← dist_eq, edgeLength_sq] at e1 e2
  unfold circumcenter
  ext
  · simp only
    rw [← sub_eq_iff_eq_add', eq_div_iff (mul_ne_zero two_ne_zero hd)]
    linear_combination (-(r.2 - p.2)) * e1 + (q.2 - p.2) * e2
  · simp only
    rw [eq_sub_iff_add_eq, ← eq_sub_iff_add_eq', div_eq_iff (mul_ne_zero two_ne_zero hd)]
    linear_combination (r.1 - p.1) * e1 - (q.1 - p.1) * e2

/-- The circumcenter has the same distance to the three corners. -/
theorem isCircumradius_iff {p q r : Point} (h : NotCollinear p q r) (R : ℝ) :
    IsCircumradius p q r R ↔ R = dist (circumcenter p q r) p := by
  constructor
  · rintro ⟨m, h1, h2, h3⟩
    have := circumcenter_unique h (h2.trans h1.symm) (h3.trans h1.symm)
    rw [← this, h1]
  · rintro rfl
    exact ⟨_, rfl, (circumcenter_dist h).1, (circumcenter_dist h).2⟩

theorem edges_sum_pos {p q r : Point} (h : NotCollinear p q r) : 0 < (edges p q r).sum := by
  obtain ⟨h1, h2, h3⟩ := h.ne
  have := edgeLength_pos h1
  have := edgeLength_pos h2
  have := edgeLength_pos h3
  simp only [edges, List.sum_cons, List.sum_nil, ← dist_eq]
  linarith

theorem isInradius_iff {p q r : Point} (h : NotCollinear p q r) (ρ : ℝ) :
    IsInradius p q r ρ ↔ ρ = 2 * triangleVolume p q r / (edges p q r).sum := by
  have hs := edges_sum_pos h
  unfold IsInradius
  rw [eq_div_iff hs.ne']
  unfold triangleVolume
  constructor <;> intro h <;> linarith

theorem triangleVolume_pos {p q r : Point} (h : NotCollinear p q r) : 0 < triangleVolume p q r := by
  unfold triangleVolume
  have : 0 < |(q.1 - p.1) * (r.2 - p.2) - (r.1 - p.1) * (q.2 - p.2)| := abs_pos.2 (sub_ne_zero.2 h)
  linarith

theorem radius_iff {p q r : Point} (h : NotCollinear p q r) :
    (30 < dist (circumcenter p q r) p / ((2 : ℕ) * triangleVolume p q r / (edges p q r).sum * (2 : ℕ))) ↔
      ∃ R ρ, IsCircumradius p q r R ∧ IsInradius p q r ρ ∧ 60 * ρ < R := by
  have hs := edges_sum_pos h
  have hv := triangleVolume_pos h
  have hp : 0 < 2 * triangleVolume p q r / (edges p q r).sum := by positivity
  push_cast
  rw [lt_div_iff₀ (by positivity)]
  constructor
  · intro hlt
    exact ⟨_, _, (isCircumradius_iff h _).2 rfl, (isInradius_iff h _).2 rfl, by linarith⟩
  · rintro ⟨R, ρ, hR, hρ, hlt⟩
    rw [isCircumradius_iff h] at hR
    rw [isInradius_iff h] at hρ
    rw [hR, hρ] at hlt
    linarith

theorem ite_coarsen {C R : Prop} [Decidable C] [Decidable R] : (if C then (-1 : Int) else if R then 1 else 0) = -1 ↔ C := by
  by_cases hC : C
  · simp [hC]
  · by_cases hR : R <;> simp [hC, hR]

theorem ite_refine {C R : Prop} [Decidable C] [Decidable R] : (if C then (-1 : Int) else if R then 1 else 0) = 1 ↔ ¬ C ∧ R := by
  by_cases hC : C
  · simp [hC]
  · by_cases hR : R <;> simp [hC, hR]

theorem indicate_cases (dim : Nat) (ind : Ind) (distance : ℝ) (lens : List ℝ) (vol outer : ℝ) :
    indicate dim ind distance lens vol outer = -1 ∨ indicate dim ind distance lens vol outer = 1 ∨
      indicate dim ind distance lens vol outer = 0 := by
  have key : ∀ (C R : Prop) [Decidable C] [Decidable R], (if C then (-1 : Int) else if R then 1 else 0) = -1 ∨
      (if C then (-1 : Int) else if R then 1 else 0) = 1 ∨ (if C then (-1 : Int) else if R then 1 else 0) = 0 := by
    intro C R _ _
    by_cases hC : C
    · simp [hC]
    · by_cases hR : R <;> simp [hC, hR]
  exact key _ _

theorem coarse_iff {p q r : Point} (lo : ℝ) (h : NotCollinear p q r) :
    (((∃ e ∈ edges p q r, e < lo) ∨ (∃ e ∈ edges p q r, ∃ f ∈ edges p q r, 4 * f < e) ∨
      30 < edgeLength (circumcenter p q r) p / ((2 : ℕ) * triangleVolume p q r / (edges p q r).sum * (2 : ℕ))) ∧ 2 ≠ 3) ↔
    WantsCoarsening p q r lo := by
  have hr := radius_iff h
  rw [← dist_eq] at hr
  rw [hr]
  unfold WantsCoarsening
  constructor
  · exact fun h => h.1
  · exact fun h => ⟨h, by decide⟩

/-! ## Theorems -/

/-- C44: a triangle is to be coarsened exactly if one of the three reasons holds. -/
theorem C44_coarsen (ind : Ind) (distance : ℝ) {p q r : Point} (h : NotCollinear p q r) (hb : ∀ e ∈ edges p q r, e < 10 ^ 100) :
    indicateTriangle ind distance p q r = -1 ↔ WantsCoarsening p q r (limits ind distance).1 := by
  have hi := indicate_eq 2 ind distance (triangleVolume p q r) (edgeLength (circumcenter p q r) p) (edges_lengths h hb)
  unfold indicateTriangle
  rw [show [edgeLength p q, edgeLength p r, edgeLength q r] = edges p q r from rfl, hi, ite_coarsen]
  exact coarse_iff _ h

/-- C44: a triangle is to be refined exactly if an edge is too long and there is no reason for coarsening. -/
theorem C44_refine (ind : Ind) (distance : ℝ) {p q r : Point} (h : NotCollinear p q r) (hb : ∀ e ∈ edges p q r, e < 10 ^ 100) :
    indicateTriangle ind distance p q r = 1 ↔
      ¬ WantsCoarsening p q r (limits ind distance).1 ∧ WantsRefinement p q r (limits ind distance).2 := by
  have hi := indicate_eq 2 ind distance (triangleVolume p q r) (edgeLength (circumcenter p q r) p) (edges_lengths h hb)
  unfold indicateTriangle
  rw [show [edgeLength p q, edgeLength p r, edgeLength q r] = edges p q r from rfl, hi, ite_refine]
  exact and_congr (not_congr (coarse_iff _ h)) Iff.rfl

/-- C44: in 3D elements are never to be coarsened, and to be refined exactly if an edge is too long. -/
theorem C44_3d (ind : Ind) (distance : ℝ) {lens : List ℝ} (vol outer : ℝ) (h : Lengths lens) :
    (indicate 3 ind distance lens vol outer = 1 ↔ ∃ e ∈ lens, (limits ind distance).2 < e) ∧
    (indicate 3 ind distance lens vol outer = 0 ↔ ∀ e ∈ lens, e ≤ (limits ind distance).2) := by
  rw [indicate_eq 3 ind distance vol outer h]
  simp only [ne_eq, not_true_eq_false, and_false, if_false]
  constructor
  · split <;> simp [*]
  · split
    · rename_i h
      obtain ⟨e, he, hlt⟩ := h
      simp only [one_ne_zero, false_iff, not_forall, not_le]
      exact ⟨e, he, hlt⟩
    · rename_i h
      push Not at h
      simp only [true_iff]
      exact h

/-- C44: the permitted range of edge lengths is `[minH, maxH]` at the interface, `factor` times that from distance `maxDist`
on, and the linear interpolation between. -/
theorem C44_limits (ind : Ind) {d : ℝ} (hm : 0 < ind.maxDist) :
    (d = 0 → limits ind d = (ind.minH, ind.maxH)) ∧
    (ind.maxDist ≤ d → limits ind d = (ind.factor * ind.minH, ind.factor * ind.maxH)) ∧
    (∀ t, 0 ≤ t → t ≤ 1 → d = t * ind.maxDist →
      limits ind d = (ind.minH + t * (ind.factor * ind.minH - ind.minH), ind.maxH + t * (ind.factor * ind.maxH - ind.maxH))) := by
  refine ⟨?_, ?_, ?_⟩
  · rintro rfl
    simp [limits, min_eq_right hm.le]
  · intro h
    simp [limits, min_eq_left h, div_self hm.ne']
  · rintro t h0 h1 rfl
    have : min ind.maxDist (t * ind.maxDist) = t * ind.maxDist := min_eq_right (by nlinarith)
    simp only [limits, this]
    rw [mul_div_assoc, div_self hm.ne', mul_one]
    ext <;> simp only <;> ring

example : limits ⟨1, 8, 1, 3, 2⟩ 0 = (1, 8) ∧ limits ⟨1, 8, 1, 3, 2⟩ 1 = (2, 16) ∧ limits ⟨1, 8, 1, 3, 2⟩ 5 = (3, 24) := by
  refine ⟨(C44_limits ⟨1, 8, 1, 3, 2⟩ (by norm_num)).1 rfl, ?_, ?_⟩
  · rw [(C44_limits ⟨1, 8, 1, 3, 2⟩ (by norm_num)).2.2 (1 / 2) (by norm_num) (by norm_num) (by norm_num)]
    norm_num
  · rw [(C44_limits ⟨1, 8, 1, 3, 2⟩ (by norm_num)).2.1 (by norm_num)]
    norm_num

/-- C44: the constructor permits edges from `h / 4` to `2 h`. -/
theorem C44_construct (h distProportion factor x : ℝ) :
    (construct h distProportion factor x).minH = h / 4 ∧ (construct h distProportion factor x).maxH = 2 * h := by
  unfold construct smallK bigK edgeRatio
  constructor <;> ring

theorem range_spec (lens : List ℝ) : ∀ m : ℝ × ℝ,
    let t := lens.foldl (fun (m : ℝ × ℝ) h => (max m.1 h, min m.2 h)) m
    m.1 ≤ t.1 ∧ t.2 ≤ m.2 ∧ (∀ e ∈ lens, t.2 ≤ e ∧ e ≤ t.1) ∧ (t.1 = m.1 ∨ t.1 ∈ lens) ∧ (t.2 = m.2 ∨ t.2 ∈ lens) := by
  induction lens with
  | nil => intro m; simp
  | cons a lens ih =>
    intro m
    obtain ⟨h1, h2, h3, h4, h5⟩ := ih (max m.1 a, min m.2 a)
    simp only [List.foldl_cons]
    refine ⟨(le_max_left _ _).trans h1, h2.trans (min_le_left _ _), ?_, ?_, ?_⟩
    · intro e he
      rcases List.mem_cons.1 he with rfl | he
      · exact ⟨h2.trans (min_le_right _ _), (le_max_right _ _).trans h1⟩
      · exact h3 e he
    · rcases h4 with h4 | h4
      · rw [h4]
        rcases max_choice m.1 a with h | h
        · exact Or.inl h
        · simp only [h]; exact Or.inr (by simp)
      · exact Or.inr (List.mem_cons_of_mem _ h4)
    · rcases h5 with h5 | h5
      · rw [h5]
        rcases min_choice m.2 a with h | h
        · exact Or.inl h
        · simp only [h]; exact Or.inr (by simp)
      · exact Or.inr (List.mem_cons_of_mem _ h5)

theorem range_extrema {lens : List ℝ} (h : Lengths lens) :
    (range lens).1 ∈ lens ∧ (range lens).2 ∈ lens ∧ ∀ e ∈ lens, (range lens).2 ≤ e ∧ e ≤ (range lens).1 := by
  obtain ⟨hne, hpos⟩ := h
  obtain ⟨a, ha⟩ := List.exists_mem_of_ne_nil lens hne
  obtain ⟨h1, h2, h3, h4, h5⟩ := range_spec lens (0, 10 ^ 100)
  refine ⟨?_, ?_, h3⟩
  · rcases h4 with h4 | h4
    · have := (h3 a ha).2
      rw [h4] at this
      exact absurd (hpos a ha).1 (not_lt.2 this)
    · exact h4
  · rcases h5 with h5 | h5
    · have := (h3 a ha).1
      rw [h5] at this
      exact absurd (hpos a ha).2 (not_lt.2 this)
    · exact h5

/-- C44: `init` permits edges from a quarter of the shortest edge to twice the longest edge, of the interface if there is
one, otherwise of the grid; far from the interface the lengths are multiplied by the ratio of the longest to the shortest
edge of the grid. -/
theorem C44_init (ind : Ind) {ilens lens : List ℝ} (noInterface : Bool) (hi : noInterface = false → Lengths ilens) (hl : Lengths lens) :
    ∃ lo hi blo bhi, IsLeast {e | e ∈ if noInterface then lens else ilens} lo ∧ IsGreatest {e | e ∈ if noInterface then lens else ilens} hi ∧
      IsLeast {e | e ∈ lens} blo ∧ IsGreatest {e | e ∈ lens} bhi ∧
      (init ind ilens lens noInterface).minH = lo / 4 ∧ (init ind ilens lens noInterface).maxH = 2 * hi ∧
      (init ind ilens lens noInterface).factor = bhi / blo := by
  obtain ⟨b1, b2, b3⟩ := range_extrema hl
  cases noInterface with
  | true =>
    refine ⟨(range lens).2, (range lens).1, (range lens).2, (range lens).1, ⟨b2, fun e he => (b3 e he).1⟩, ⟨b1, fun e he => (b3 e he).2⟩,
      ⟨b2, fun e he => (b3 e he).1⟩, ⟨b1, fun e he => (b3 e he).2⟩, ?_, ?_, rfl⟩
    · simp only [init, smallK, bigK, edgeRatio, if_true]; ring
    · simp only [init, bigK, if_true]
  | false =>
    obtain ⟨i1, i2, i3⟩ := range_extrema (hi rfl)
    refine ⟨(range ilens).2, (range ilens).1, (range lens).2, (range lens).1, ⟨i2, fun e he => (i3 e he).1⟩, ⟨i1, fun e he => (i3 e he).2⟩,
      ⟨b2, fun e he => (b3 e he).1⟩, ⟨b1, fun e he => (b3 e he).2⟩, ?_, ?_, rfl⟩
    · simp only [init, smallK, bigK, edgeRatio]; norm_num; ring
    · simp only [init, bigK]; norm_num

/-- The documentation of the class states half the length of the shortest edge as minimal length; it is a quarter. -/
theorem C119_documented_minimum_false : ∃ (ind : Ind) (ilens : List ℝ), Lengths ilens ∧
    (init ind ilens ilens false).minH ≠ 1 / 2 * (ilens.headD 0) ∧ ilens.length = 1 := by
  refine ⟨⟨0, 0, 1, 1, 1⟩, [1], ⟨by simp, ?_⟩, ?_, rfl⟩
  · intro e he
    simp only [List.mem_cons, List.not_mem_nil, or_false] at he
    subst he
    norm_num
  · simp only [init, range, smallK, bigK, edgeRatio, List.foldl_cons, List.foldl_nil, List.headD_cons]
    norm_num

/-- C44: the decision for an element of the interface of a 2D grid. -/
theorem C44_segment (ind : Ind) {p q : Point} (hne : p ≠ q) (hb : dist p q < 10 ^ 100) (hm : 0 < ind.maxDist) :
    (indicateSegment ind p q = -1 ↔ dist p q < ind.minH ∨ 240 < dist p q) ∧
    (indicateSegment ind p q = 1 ↔ ind.minH ≤ dist p q ∧ dist p q ≤ 240 ∧ ind.maxH < dist p q) := by
  have hpos := edgeLength_pos hne
  have hL : Lengths [edgeLength p q] := ⟨by simp, by intro e he; simp at he; subst he; exact ⟨hpos, hb⟩⟩
  have hout : edgeLength ((p.1 + q.1) / 2, (p.2 + q.2) / 2) p = edgeLength p q / 2 := by
    unfold edgeLength
    rw [show ((p.1 + q.1) / 2 - p.1) ^ 2 + ((p.2 + q.2) / 2 - p.2) ^ 2 = ((p.1 - q.1) ^ 2 + (p.2 - q.2) ^ 2) / 2 ^ 2 by ring,
      Real.sqrt_div (by positivity), Real.sqrt_sq (by norm_num)]
  have hr : (30 < edgeLength p q / 2 / ((2 : ℕ) * edgeLength p q / [edgeLength p q].sum * (2 : ℕ))) ↔ 240 < dist p q := by
    rw [dist_eq] at *
    simp only [List.sum_cons, List.sum_nil, add_zero]
    push_cast
    rw [mul_div_assoc, div_self hpos.ne']
    constructor <;> intro h <;> linarith
  have h4 : ¬ (4 * dist p q < dist p q) := by rw [dist_eq] at hpos; linarith
  have hl := (C44_limits ind (d := 0) hm).1 rfl
  unfold indicateSegment
  rw [indicate_eq 2 ind 0 _ _ hL, hout, ite_coarsen, ite_refine, hl, hr]
  simp only [List.mem_cons, List.not_mem_nil, or_false, exists_eq_left, dist_eq, h4, false_or]
  constructor
  · exact ⟨fun h => h.1, fun h => ⟨h, by decide⟩⟩
  · constructor
    · rintro ⟨h1, h2⟩
      have h1' : ¬ (dist p q < ind.minH ∨ 240 < dist p q) := fun h => h1 ⟨h, by decide⟩
      push Not at h1'
      exact ⟨h1'.1, h1'.2, h2⟩
    · rintro ⟨h1, h2, h3⟩
      exact ⟨by rintro ⟨h | h, -⟩ <;> linarith, h3⟩

/-- C44: right after `init` no interface element of length at most 240 is to be changed. -/
theorem C44_init_stable (ind : Ind) {segs : List (Point × Point)} {lens : List ℝ} (hl : Lengths lens) (maximum : ℝ)
    (hm : 0 < ind.distProportion * maximum) (hne : ∀ s ∈ segs, s.1 ≠ s.2) (hb : ∀ s ∈ segs, dist s.1 s.2 ≤ 240) :
    ∀ s ∈ segs, indicateSegment (update (init ind (segs.map (fun s => dist s.1 s.2)) lens false) maximum) s.1 s.2 = 0 := by
  intro s hs
  have hbig : ∀ x : ℝ, x ≤ 240 → x < 10 ^ 100 := fun x hx => lt_of_le_of_lt hx (by norm_num)
  have hL : Lengths (segs.map (fun s => dist s.1 s.2)) := by
    refine ⟨by intro h; rw [List.map_eq_nil_iff] at h; subst h; simp at hs, ?_⟩
    intro e he
    obtain ⟨s', hs', rfl⟩ := List.mem_map.1 he
    exact ⟨edgeLength_pos (hne s' hs'), hbig _ (hb s' hs')⟩
  obtain ⟨lo, hi, blo, bhi, hlo, hhi, -, -, e1, e2, -⟩ := C44_init ind false (fun _ => hL) hl
  obtain ⟨h1, h2⟩ := C44_segment (update (init ind (segs.map (fun s => dist s.1 s.2)) lens false) maximum) (hne s hs)
    (hbig _ (hb s hs)) hm
  have hmem : dist s.1 s.2 ∈ {e | e ∈ if false = true then lens else segs.map (fun s => dist s.1 s.2)} := by
    simp only [Bool.false_eq_true, if_false]
    exact List.mem_map_of_mem (f := fun s : Point × Point => dist s.1 s.2) hs
  have hlo' := hlo.2 hmem
  have hhi' := hhi.2 hmem
  have hpos : 0 < dist s.1 s.2 := edgeLength_pos (hne s hs)
  have hlopos : 0 < lo := by
    have := hlo.1
    simp only [Bool.false_eq_true, if_false, Set.mem_ofPred_eq] at this
    exact (hL.2 lo this).1
  have e1' : (update (init ind (segs.map (fun s => dist s.1 s.2)) lens false) maximum).minH = lo / 4 := e1
  have e2' : (update (init ind (segs.map (fun s => dist s.1 s.2)) lens false) maximum).maxH = 2 * hi := e2
  rw [e1'] at h1 h2
  rw [e2'] at h2
  have n1 : indicateSegment (update (init ind (segs.map (fun s => dist s.1 s.2)) lens false) maximum) s.1 s.2 ≠ -1 := by
    rw [ne_eq, h1]
    push Not
    exact ⟨by linarith, hb s hs⟩
  have n2 : indicateSegment (update (init ind (segs.map (fun s => dist s.1 s.2)) lens false) maximum) s.1 s.2 ≠ 1 := by
    rw [ne_eq, h2]
    rintro ⟨-, -, h⟩
    linarith
  rcases indicate_cases 2 (update (init ind (segs.map (fun s => dist s.1 s.2)) lens false) maximum) 0 [edgeLength s.1 s.2]
    (edgeLength s.1 s.2) (edgeLength ((s.1.1 + s.2.1) / 2, (s.1.2 + s.2.2) / 2) s.1) with h | h | h
  · exact absurd h n1
  · exact absurd h n2
  · exact h

/-- The decision for elements of the interface depends on the unit of length: an element longer than 240 is to be
coarsened, even if it is longer than the permitted maximum. -/
theorem C119_segment_unit_false : ∃ (ind : Ind) (p q : Point), 0 < ind.minH ∧ ind.minH < ind.maxH ∧ 0 < ind.maxDist ∧
    ind.maxH < dist p q ∧ indicateSegment ind p q = -1 ∧
    indicateSegment ⟨ind.minH / 1000, ind.maxH / 1000, ind.distProportion, ind.factor, ind.maxDist / 1000⟩
      (p.1 / 1000, p.2 / 1000) (q.1 / 1000, q.2 / 1000) = 1 := by
  have h1 : dist (0, 0) (300, 0) = 300 := by
    unfold dist
    rw [show (((0 : ℝ), (0 : ℝ)).1 - ((300 : ℝ), (0 : ℝ)).1) ^ 2 + (((0 : ℝ), (0 : ℝ)).2 - ((300 : ℝ), (0 : ℝ)).2) ^ 2 = 300 ^ 2 by norm_num]
    exact Real.sqrt_sq (by norm_num)
  have h2 : dist (((0 : ℝ), (0 : ℝ)).1 / 1000, ((0 : ℝ), (0 : ℝ)).2 / 1000) (((300 : ℝ), (0 : ℝ)).1 / 1000, ((300 : ℝ), (0 : ℝ)).2 / 1000) = 3 / 10 := by
    unfold dist
    rw [show ((((0 : ℝ), (0 : ℝ)).1 / 1000, ((0 : ℝ), (0 : ℝ)).2 / 1000).1 - (((300 : ℝ), (0 : ℝ)).1 / 1000, ((300 : ℝ), (0 : ℝ)).2 / 1000).1) ^ 2 +
      ((((0 : ℝ), (0 : ℝ)).1 / 1000, ((0 : ℝ), (0 : ℝ)).2 / 1000).2 - (((300 : ℝ), (0 : ℝ)).1 / 1000, ((300 : ℝ), (0 : ℝ)).2 / 1000).2) ^ 2 = (3 / 10) ^ 2 by norm_num]
    exact Real.sqrt_sq (by norm_num)
  refine ⟨⟨10, 80, 1, 1, 1⟩, (0, 0), (300, 0), by norm_num, by norm_num, by norm_num, by rw [h1]; norm_num, ?_, ?_⟩
  · refine ((C44_segment _ ?_ ?_ ?_).1).2 ?_
    · intro h; simp at h
    · rw [h1]; norm_num
    · norm_num
    · rw [h1]; norm_num
  · refine ((C44_segment _ ?_ ?_ ?_).2).2 ?_
    · intro h; norm_num at h
    · rw [h2]; norm_num
    · norm_num
    · rw [h2]; norm_num

theorem dist_scale {s : ℝ} (hs : 0 < s) (p q : Point) : dist (s * p.1, s * p.2) (s * q.1, s * q.2) = s * dist p q := by
  unfold dist
  rw [show ((s * p.1, s * p.2).1 - (s * q.1, s * q.2).1) ^ 2 + ((s * p.1, s * p.2).2 - (s * q.1, s * q.2).2) ^ 2 =
    s ^ 2 * ((p.1 - q.1) ^ 2 + (p.2 - q.2) ^ 2) by simp only; ring, Real.sqrt_mul (by positivity), Real.sqrt_sq hs.le]

/-- C44: the decision for a triangle does not depend on the unit of length. -/
theorem C44_unit (ind : Ind) (distance : ℝ) {p q r : Point} {s : ℝ} (hs : 0 < s) (h : NotCollinear p q r)
    (hb : ∀ e ∈ edges p q r, e < 10 ^ 100 ∧ s * e < 10 ^ 100) :
    indicateTriangle ⟨s * ind.minH, s * ind.maxH, ind.distProportion, ind.factor, s * ind.maxDist⟩ (s * distance)
      (s * p.1, s * p.2) (s * q.1, s * q.2) (s * r.1, s * r.2) = indicateTriangle ind distance p q r := by
  have hn : NotCollinear (s * p.1, s * p.2) (s * q.1, s * q.2) (s * r.1, s * r.2) := by
    intro he
    apply h
    simp only at he
    have : s ^ 2 * ((q.1 - p.1) * (r.2 - p.2)) = s ^ 2 * ((r.1 - p.1) * (q.2 - p.2)) := by linear_combination he
    exact mul_left_cancel₀ (by positivity) this
  have he : edges (s * p.1, s * p.2) (s * q.1, s * q.2) (s * r.1, s * r.2) = (edges p q r).map (fun e => s * e) := by
    simp only [edges, dist_scale hs, List.map_cons, List.map_nil]
  have hb' : ∀ e ∈ edges (s * p.1, s * p.2) (s * q.1, s * q.2) (s * r.1, s * r.2), e < 10 ^ 100 := by
    rw [he]
    intro e hm
    obtain ⟨e', he', rfl⟩ := List.mem_map.1 hm
    exact (hb e' he').2
  have hlim : limits ⟨s * ind.minH, s * ind.maxH, ind.distProportion, ind.factor, s * ind.maxDist⟩ (s * distance) =
      (s * (limits ind distance).1, s * (limits ind distance).2) := by
    simp only [limits]
    rw [← mul_min_of_nonneg _ _ hs.le, mul_div_mul_left _ _ hs.ne']
    ext <;> simp only <;> ring
  have hc : WantsCoarsening (s * p.1, s * p.2) (s * q.1, s * q.2) (s * r.1, s * r.2) (s * (limits ind distance).1) ↔
      WantsCoarsening p q r (limits ind distance).1 := by
    unfold WantsCoarsening
    rw [he]
    have hcirc : circumcenter (s * p.1, s * p.2) (s * q.1, s * q.2) (s * r.1, s * r.2) =
        (s * (circumcenter p q r).1, s * (circumcenter p q r).2) := by
      symm
      apply circumcenter_unique hn
      · rw [dist_scale hs, dist_scale hs, (circumcenter_dist h).1]
      · rw [dist_scale hs, dist_scale hs, (circumcenter_dist h).2]
    have hvol : triangleVolume (s * p.1, s * p.2) (s * q.1, s * q.2) (s * r.1, s * r.2) = s ^ 2 * triangleVolume p q r := by
      unfold triangleVolume
      simp only
      rw [show (s * q.1 - s * p.1) * (s * r.2 - s * p.2) - (s * r.1 - s * p.1) * (s * q.2 - s * p.2) =
        s ^ 2 * ((q.1 - p.1) * (r.2 - p.2) - (r.1 - p.1) * (q.2 - p.2)) by ring, abs_mul, abs_of_pos (by positivity : 0 < s ^ 2)]
      ring
    have hrad : (∃ R ρ, IsCircumradius (s * p.1, s * p.2) (s * q.1, s * q.2) (s * r.1, s * r.2) R ∧
        IsInradius (s * p.1, s * p.2) (s * q.1, s * q.2) (s * r.1, s * r.2) ρ ∧ 60 * ρ < R) ↔
        ∃ R ρ, IsCircumradius p q r R ∧ IsInradius p q r ρ ∧ 60 * ρ < R := by
      have hsum := edges_sum_pos h
      have hmap : ((edges p q r).map (fun e => s * e)).sum = s * (edges p q r).sum := by
        simp only [edges, List.map_cons, List.map_nil, List.sum_cons, List.sum_nil]
        ring
      have e1 : 2 * (s ^ 2 * triangleVolume p q r) / (s * (edges p q r).sum) = s * (2 * triangleVolume p q r / (edges p q r).sum) := by
        field_simp
      constructor
      · rintro ⟨R, ρ, hR, hρ, hlt⟩
        rw [isCircumradius_iff hn, hcirc, dist_scale hs] at hR
        rw [isInradius_iff hn, he, hmap, hvol, e1] at hρ
        refine ⟨_, _, (isCircumradius_iff h _).2 rfl, (isInradius_iff h _).2 rfl, ?_⟩
        rw [hR, hρ] at hlt
        have : s * (60 * (2 * triangleVolume p q r / (edges p q r).sum)) < s * dist (circumcenter p q r) p := by linarith
        exact lt_of_mul_lt_mul_left this hs.le
      · rintro ⟨R, ρ, hR, hρ, hlt⟩
        rw [isCircumradius_iff h] at hR
        rw [isInradius_iff h] at hρ
        refine ⟨_, _, (isCircumradius_iff hn _).2 rfl, (isInradius_iff hn _).2 rfl, ?_⟩
        rw [he, hmap, hvol, e1, hcirc, dist_scale hs, ← hR, ← hρ]
        have := mul_lt_mul_of_pos_left hlt hs
        linarith
    rw [hrad]
    have h1 : (∃ e ∈ (edges p q r).map (fun e => s * e), e < s * (limits ind distance).1) ↔ ∃ e ∈ edges p q r, e < (limits ind distance).1 := by
      simp only [List.mem_map, exists_exists_and_eq_and]
      exact exists_congr fun e => and_congr_right fun _ => mul_lt_mul_iff_right₀ hs
    have h2 : (∃ e ∈ (edges p q r).map (fun e => s * e), ∃ f ∈ (edges p q r).map (fun e => s * e), 4 * f < e) ↔
        ∃ e ∈ edges p q r, ∃ f ∈ edges p q r, 4 * f < e := by
      simp only [List.mem_map, exists_exists_and_eq_and]
      refine exists_congr fun e => and_congr_right fun _ => exists_congr fun f => and_congr_right fun _ => ?_
      rw [show 4 * (s * f) = s * (4 * f) by ring]
      exact mul_lt_mul_iff_right₀ hs
    rw [h1, h2]
  have hr : WantsRefinement (s * p.1, s * p.2) (s * q.1, s * q.2) (s * r.1, s * r.2) (s * (limits ind distance).2) ↔
      WantsRefinement p q r (limits ind distance).2 := by
    unfold WantsRefinement
    rw [he]
    simp only [List.mem_map, exists_exists_and_eq_and]
    exact exists_congr fun e => and_congr_right fun _ => mul_lt_mul_iff_right₀ hs
  have k1 := C44_coarsen ⟨s * ind.minH, s * ind.maxH, ind.distProportion, ind.factor, s * ind.maxDist⟩ (s * distance) hn hb'
  have k2 := C44_refine ⟨s * ind.minH, s * ind.maxH, ind.distProportion, ind.factor, s * ind.maxDist⟩ (s * distance) hn hb'
  have k3 := C44_coarsen ind distance h (fun e he => (hb e he).1)
  have k4 := C44_refine ind distance h (fun e he => (hb e he).1)
  rw [hlim] at k1 k2
  rw [hc] at k1 k2
  rw [hr] at k2
  rw [← k3] at k1
  rw [← k4] at k2
  have c1 : ∀ (ind : Ind) (d : ℝ) (p q r : Point), indicateTriangle ind d p q r = -1 ∨ indicateTriangle ind d p q r = 1 ∨ indicateTriangle ind d p q r = 0 :=
    fun ind d p q r => indicate_cases 2 ind d _ _ _
  rcases c1 ind distance p q r with h | h | h
  · rw [h]; exact k1.2 h
  · rw [h]; exact k2.2 h
  · rcases c1 ⟨s * ind.minH, s * ind.maxH, ind.distProportion, ind.factor, s * ind.maxDist⟩ (s * distance)
      (s * p.1, s * p.2) (s * q.1, s * q.2) (s * r.1, s * r.2) with h' | h' | h'
    · exact absurd (k1.1 h') (by rw [h]; decide)
    · exact absurd (k2.1 h') (by rw [h]; decide)
    · rw [h, h']

/-- The side lengths and the radii determine each other. -/
theorem radius_bound {p q r : Point} (h : NotCollinear p q r) :
    (∃ R ρ, IsCircumradius p q r R ∧ IsInradius p q r ρ ∧ 60 * ρ < R) ↔
      30 * ((dist q r + dist p r - dist p q) * (dist p q ^ 2 - (dist q r - dist p r) ^ 2)) < dist q r * dist p r * dist p q := by
  have hd : (q.1 - p.1) * (r.2 - p.2) - (r.1 - p.1) * (q.2 - p.2) ≠ 0 := sub_ne_zero.2 h
  obtain ⟨h1, h2, h3⟩ := h.ne
  have ha : 0 < dist q r := edgeLength_pos h3
  have hb : 0 < dist p r := edgeLength_pos h2
  have hc : 0 < dist p q := edgeLength_pos h1
  have sa : dist q r ^ 2 = (q.1 - r.1) ^ 2 + (q.2 - r.2) ^ 2 := edgeLength_sq q r
  have sb : dist p r ^ 2 = (p.1 - r.1) ^ 2 + (p.2 - r.2) ^ 2 := edgeLength_sq p r
  have sc : dist p q ^ 2 = (p.1 - q.1) ^ 2 + (p.2 - q.2) ^ 2 := edgeLength_sq p q
  obtain ⟨a, hadef⟩ : ∃ a, a = dist q r := ⟨_, rfl⟩
  obtain ⟨b, hbdef⟩ : ∃ b, b = dist p r := ⟨_, rfl⟩
  obtain ⟨c, hcdef⟩ : ∃ c, c = dist p q := ⟨_, rfl⟩
  obtain ⟨D, hD⟩ : ∃ D, D = |(q.1 - p.1) * (r.2 - p.2) - (r.1 - p.1) * (q.2 - p.2)| := ⟨_, rfl⟩
  have hDpos : 0 < D := by rw [hD]; exact abs_pos.2 hd
  have hDsq : D ^ 2 = ((q.1 - p.1) * (r.2 - p.2) - (r.1 - p.1) * (q.2 - p.2)) ^ 2 := by rw [hD, sq_abs]
  -- Heron
  have heron : 4 * D ^ 2 = (a + b + c) * ((a + b - c) * (c ^ 2 - (a - b) ^ 2)) := by
    rw [← hadef] at sa
    rw [← hbdef] at sb
    rw [← hcdef] at sc
    have : (a + b + c) * ((a + b - c) * (c ^ 2 - (a - b) ^ 2)) = 4 * a ^ 2 * b ^ 2 - (a ^ 2 + b ^ 2 - c ^ 2) ^ 2 := by ring
    rw [this, hDsq, sa, sb, sc]
    ring
  have hR : dist (circumcenter p q r) p = a * b * c / (2 * D) := by
    have hsq : dist (circumcenter p q r) p ^ 2 = (a * b * c / (2 * D)) ^ 2 := by
      rw [← dist_eq, edgeLength_sq, div_pow, mul_pow, mul_pow, mul_pow, hDsq, hadef, hbdef, hcdef, sa, sb, sc]
      exact circ_sq rfl (mul_ne_zero two_ne_zero hd)
    have hp : 0 < a * b * c / (2 * D) := by rw [hadef, hbdef, hcdef]; positivity
    exact (pow_left_inj₀ (edgeLength_nonneg (circumcenter p q r) p) hp.le two_ne_zero).1 hsq
  have hrho : 2 * triangleVolume p q r / (edges p q r).sum = D / (a + b + c) := by
    unfold triangleVolume
    rw [← hD]
    simp only [edges, List.sum_cons, List.sum_nil, add_zero]
    rw [← hadef, ← hbdef, ← hcdef]
    rw [show c + (b + a) = a + b + c by ring, mul_div_cancel₀ D (two_ne_zero)]
  have hex : (∃ R ρ, IsCircumradius p q r R ∧ IsInradius p q r ρ ∧ 60 * ρ < R) ↔ 60 * (D / (a + b + c)) < a * b * c / (2 * D) := by
    simp only [isCircumradius_iff h, isInradius_iff h, hR, hrho]
    constructor
    · rintro ⟨R, ρ, rfl, rfl, hlt⟩; exact hlt
    · intro hlt; exact ⟨_, _, rfl, rfl, hlt⟩
  rw [hex, ← hadef, ← hbdef, ← hcdef]
  rw [← hadef] at ha
  rw [← hbdef] at hb
  rw [← hcdef] at hc
  have hs : 0 < a + b + c := by linarith
  rw [← mul_div_assoc, div_lt_div_iff₀ hs (by linarith)]
  have e1 : 60 * D * (2 * D) = (a + b + c) * (30 * ((a + b - c) * (c ^ 2 - (a - b) ^ 2))) := by linear_combination 30 * heron
  rw [e1, mul_comm (a * b * c) (a + b + c)]
  exact mul_lt_mul_iff_right₀ hs

/-- The triangle inequality. -/
theorem triangle_lt {p q r : Point} (h : NotCollinear p q r) :
    dist p q < dist q r + dist p r ∧ (dist q r - dist p r) ^ 2 < dist p q ^ 2 := by
  have hd : (q.1 - p.1) * (r.2 - p.2) - (r.1 - p.1) * (q.2 - p.2) ≠ 0 := sub_ne_zero.2 h
  obtain ⟨h1, h2, h3⟩ := h.ne
  have ha : 0 < dist q r := edgeLength_pos h3
  have hb : 0 < dist p r := edgeLength_pos h2
  have hc : 0 < dist p q := edgeLength_pos h1
  have sa : dist q r ^ 2 = (q.1 - r.1) ^ 2 + (q.2 - r.2) ^ 2 := edgeLength_sq q r
  have sb : dist p r ^ 2 = (p.1 - r.1) ^ 2 + (p.2 - r.2) ^ 2 := edgeLength_sq p r
  have sc : dist p q ^ 2 = (p.1 - q.1) ^ 2 + (p.2 - q.2) ^ 2 := edgeLength_sq p q
  have hsq : 0 < 4 * ((q.1 - p.1) * (r.2 - p.2) - (r.1 - p.1) * (q.2 - p.2)) ^ 2 := by positivity
  have heron : 4 * ((q.1 - p.1) * (r.2 - p.2) - (r.1 - p.1) * (q.2 - p.2)) ^ 2 =
      ((dist q r + dist p r) ^ 2 - dist p q ^ 2) * (dist p q ^ 2 - (dist q r - dist p r) ^ 2) := by
    have : ((dist q r + dist p r) ^ 2 - dist p q ^ 2) * (dist p q ^ 2 - (dist q r - dist p r) ^ 2) =
      4 * dist q r ^ 2 * dist p r ^ 2 - (dist q r ^ 2 + dist p r ^ 2 - dist p q ^ 2) ^ 2 := by ring
    rw [this, sa, sb, sc]
    ring
  rw [heron] at hsq
  rcases (mul_pos_iff.1 hsq) with ⟨h1, h2⟩ | ⟨h1, h2⟩
  · refine ⟨?_, by linarith⟩
    nlinarith
  · exfalso
    nlinarith [mul_pos ha hb]

theorem le_of_sq_le_sq {x y : ℝ} (h : x ^ 2 ≤ y ^ 2) (hy : 0 ≤ y) : x ≤ y := by
  by_contra hlt
  push Not at hlt
  nlinarith

/-- Two long edges and a bound for the ratio of the radii give a bound for the median to the third edge. -/
theorem median_bound {lo a b c : ℝ} (hlo : 0 ≤ lo) (ha : 0 < a) (hb : 0 < b) (hc : 0 < c) (ht : c < a + b) (ht2 : 0 < c ^ 2 - (a - b) ^ 2)
    (hrad : a * b * c ≤ 30 * ((a + b - c) * (c ^ 2 - (a - b) ^ 2))) (htwo : 8 * lo ≤ a ∨ 8 * lo ≤ b) :
    4 * lo ^ 2 ≤ 2 * a ^ 2 + 2 * b ^ 2 - c ^ 2 := by
  -- flatness is bounded by the ratio of the radii
  have hflat : c ≤ 120 * (a + b - c) := by
    have h4 : c ^ 2 - (a - b) ^ 2 ≤ 4 * (a * b) := by
      have : c ^ 2 ≤ (a + b) ^ 2 := pow_le_pow_left₀ hc.le ht.le 2
      linarith
    have h5 := mul_le_mul_of_nonneg_left h4 hc.le
    have : c * (c ^ 2 - (a - b) ^ 2) ≤ 120 * (a + b - c) * (c ^ 2 - (a - b) ^ 2) := by linarith
    exact le_of_mul_le_mul_right this ht2
  have hcs : c ≤ 120 / 121 * (a + b) := by linarith
  have hcs2 : c ^ 2 ≤ (120 / 121 * (a + b)) ^ 2 := pow_le_pow_left₀ hc.le hcs 2
  have h3 := sq_nonneg lo
  rcases htwo with hb8 | hb8
  · have h1 := sq_nonneg (241 / 14641 * (a + b) - (a - b))
    have h2 := pow_le_pow_left₀ (by linarith : (0 : ℝ) ≤ 8 * lo) hb8 2
    linarith
  · have h1 := sq_nonneg (241 / 14641 * (a + b) - (b - a))
    have h2 := pow_le_pow_left₀ (by linarith : (0 : ℝ) ≤ 8 * lo) hb8 2
    linarith

/-- C63: if a triangle is to be refined, two of its edges are longer than the permitted maximum, and the permitted maximum is
at least 8 times the permitted minimum (as set up by the constructor and by `init`), then all edges of the two triangles that
arise from halving its longest edge have at least the permitted minimal length. -/
theorem C63_halved (ind : Ind) (distance : ℝ) {p q r : Point} (h : NotCollinear p q r) (hb : ∀ e ∈ edges p q r, e < 10 ^ 100)
    (h8 : 8 * (limits ind distance).1 ≤ (limits ind distance).2) (hlo : 0 ≤ (limits ind distance).1)
    (hind : indicateTriangle ind distance p q r = 1)
    (hlong : dist p r ≤ dist p q ∧ dist q r ≤ dist p q)
    (htwo : (limits ind distance).2 < dist p r ∨ (limits ind distance).2 < dist q r)
    {m : Point} (hm : m = ((p.1 + q.1) / 2, (p.2 + q.2) / 2)) :
    ∀ e ∈ [dist p m, dist m q, dist m r, dist p r, dist q r], (limits ind distance).1 ≤ e := by
  obtain ⟨hcoarse, -⟩ := (C44_refine ind distance h hb).1 hind
  unfold WantsCoarsening at hcoarse
  push Not at hcoarse
  obtain ⟨hshort, -, hrad⟩ := hcoarse
  have hrad' : ¬ ∃ R ρ, IsCircumradius p q r R ∧ IsInradius p q r ρ ∧ 60 * ρ < R := by
    rintro ⟨R, ρ, h1, h2, h3⟩
    exact absurd (hrad R ρ h1 h2) (not_le.2 h3)
  rw [radius_bound h, not_lt] at hrad'
  obtain ⟨ht1, ht2⟩ := triangle_lt h
  obtain ⟨h1, h2, h3⟩ := h.ne
  have ha : 0 < dist q r := edgeLength_pos h3
  have hb' : 0 < dist p r := edgeLength_pos h2
  have hc : 0 < dist p q := edgeLength_pos h1
  have sa : dist q r ^ 2 = (q.1 - r.1) ^ 2 + (q.2 - r.2) ^ 2 := edgeLength_sq q r
  have sb : dist p r ^ 2 = (p.1 - r.1) ^ 2 + (p.2 - r.2) ^ 2 := edgeLength_sq p r
  have sc : dist p q ^ 2 = (p.1 - q.1) ^ 2 + (p.2 - q.2) ^ 2 := edgeLength_sq p q
  have spm : dist p m ^ 2 = dist p q ^ 2 / 4 := by rw [sc, ← dist_eq, edgeLength_sq, hm]; ring
  have smq : dist m q ^ 2 = dist p q ^ 2 / 4 := by rw [sc, ← dist_eq, edgeLength_sq, hm]; ring
  have smr : dist m r ^ 2 = (2 * dist q r ^ 2 + 2 * dist p r ^ 2 - dist p q ^ 2) / 4 := by
    rw [sa, sb, sc, ← dist_eq, edgeLength_sq, hm]; ring
  have npm : 0 ≤ dist p m := edgeLength_nonneg _ _
  have nmq : 0 ≤ dist m q := edgeLength_nonneg _ _
  have nmr : 0 ≤ dist m r := edgeLength_nonneg _ _
  have l1 := hshort (dist p r) (by simp [edges])
  have l2 := hshort (dist q r) (by simp [edges])
  generalize (limits ind distance).1 = lo at *
  generalize (limits ind distance).2 = hi at *
  generalize dist q r = a at *
  generalize dist p r = b at *
  generalize dist p q = c at *
  generalize dist p m = x at *
  generalize dist m q = y at *
  generalize dist m r = z at *
  have hc8 : 8 * lo < c := by rcases htwo with h | h <;> linarith [hlong.1, hlong.2]
  have hx : lo ≤ x := by
    refine le_of_sq_le_sq ?_ npm
    rw [spm]
    nlinarith
  have hy : lo ≤ y := by
    refine le_of_sq_le_sq ?_ nmq
    rw [smq]
    nlinarith
  have hz : lo ≤ z := by
    refine le_of_sq_le_sq ?_ nmr
    rw [smr]
    have := median_bound hlo ha hb' hc (by linarith) (by linarith) hrad' (htwo.symm.imp (fun h => by linarith) (fun h => by linarith))
    linarith
  intro e he
  simp only [List.mem_cons, List.not_mem_nil, or_false] at he
  rcases he with rfl | rfl | rfl | rfl | rfl <;> assumption

/-- The distance of two points from its square. -/
theorem dist_of_sq {p q : Point} {x : ℝ} (hx : 0 ≤ x) (h : (p.1 - q.1) ^ 2 + (p.2 - q.2) ^ 2 = x ^ 2) : dist p q = x := by
  unfold dist
  rw [h, Real.sqrt_sq hx]

/-- A triangle with the sides 15, 12 and 9 is to be refined if lengths from 1 to 8 are permitted; it meets the hypotheses
of `C63_halved`. -/
theorem example_refine : indicateTriangle ⟨1, 8, 1, 1, 1⟩ 0 (0, 0) (12, 9) (12, 0) = 1 ∧
    edges (0, 0) (12, 9) (12, 0) = [15, 12, 9] ∧ limits ⟨1, 8, 1, 1, 1⟩ 0 = (1, 8) := by
  have h1 : dist (0, 0) (12, 9) = 15 := dist_of_sq (by norm_num) (by norm_num)
  have h2 : dist (0, 0) (12, 0) = 12 := dist_of_sq (by norm_num) (by norm_num)
  have h3 : dist (12, 9) (12, 0) = 9 := dist_of_sq (by norm_num) (by norm_num)
  have he : edges (0, 0) (12, 9) (12, 0) = [15, 12, 9] := by simp only [edges, h1, h2, h3]
  have hn : NotCollinear (0, 0) (12, 9) (12, 0) := by unfold NotCollinear; norm_num
  have hl : limits ⟨1, 8, 1, 1, 1⟩ 0 = (1, 8) := (C44_limits ⟨1, 8, 1, 1, 1⟩ (by norm_num)).1 rfl
  refine ⟨?_, he, hl⟩
  rw [C44_refine _ _ hn (by rw [he]; intro e h; simp only [List.mem_cons, List.not_mem_nil, or_false] at h; rcases h with rfl | rfl | rfl <;> norm_num), hl]
  refine ⟨?_, 15, by simp [he], by norm_num⟩
  unfold WantsCoarsening
  rw [radius_bound hn, he, h1, h2, h3]
  norm_num

/-- The same triangle is to be coarsened if lengths from 10 to 80 are permitted. -/
example : indicateTriangle ⟨10, 80, 1, 1, 1⟩ 0 (0, 0) (12, 9) (12, 0) = -1 := by
  have he := example_refine.2.1
  have hn : NotCollinear (0, 0) (12, 9) (12, 0) := by unfold NotCollinear; norm_num
  have hl : limits ⟨10, 80, 1, 1, 1⟩ 0 = (10, 80) := (C44_limits ⟨10, 80, 1, 1, 1⟩ (by norm_num)).1 rfl
  rw [C44_coarsen _ _ hn (by rw [he]; intro e h; simp only [List.mem_cons, List.not_mem_nil, or_false] at h; rcases h with rfl | rfl | rfl <;> norm_num), hl]
  exact Or.inl ⟨9, by simp [he], by norm_num⟩

example : ∀ e ∈ [dist (0, 0) (6, 9 / 2), dist (6, 9 / 2) (12, 9), dist (6, 9 / 2) (12, 0), dist (0, 0) (12, 0), dist (12, 9) (12, 0)], 1 ≤ e := by
  obtain ⟨h1, he, hl⟩ := example_refine
  have hn : NotCollinear (0, 0) (12, 9) (12, 0) := by unfold NotCollinear; norm_num
  have e1 : dist (0, 0) (12, 9) = 15 := dist_of_sq (by norm_num) (by norm_num)
  have e2 : dist (0, 0) (12, 0) = 12 := dist_of_sq (by norm_num) (by norm_num)
  have e3 : dist (12, 9) (12, 0) = 9 := dist_of_sq (by norm_num) (by norm_num)
  have := C63_halved ⟨1, 8, 1, 1, 1⟩ 0 hn
    (by rw [he]; intro e h; simp only [List.mem_cons, List.not_mem_nil, or_false] at h; rcases h with rfl | rfl | rfl <;> norm_num)
    (by rw [hl]; norm_num) (by rw [hl]; norm_num) h1 ⟨by rw [e1, e2]; norm_num, by rw [e1, e3]; norm_num⟩ (Or.inl (by rw [hl, e2]; norm_num))
    (m := (6, 9 / 2)) (by norm_num)
  rw [hl] at this
  exact this

/-- If only one edge is longer than the permitted maximum, halving it may produce an edge that is shorter than the permitted
minimum: the triangle with the sides 8.4, 4.305 and 4.305 is to be refined if lengths from 1 to 8 are permitted, but the new
edge has length 0.945. -/
theorem C124_false : ∃ (ind : Ind) (p q r : Point), 8 * (limits ind 0).1 ≤ (limits ind 0).2 ∧ 0 < (limits ind 0).1 ∧
    NotCollinear p q r ∧ (dist p r ≤ dist p q ∧ dist q r ≤ dist p q) ∧
    indicateTriangle ind 0 p q r = 1 ∧ dist ((p.1 + q.1) / 2, (p.2 + q.2) / 2) r < (limits ind 0).1 := by
  have hl : limits ⟨1, 8, 1, 1, 1⟩ 0 = (1, 8) := (C44_limits ⟨1, 8, 1, 1, 1⟩ (by norm_num)).1 rfl
  have h1 : dist (-42 / 10, 0) (42 / 10, 0) = 84 / 10 := dist_of_sq (by norm_num) (by norm_num)
  have h2 : dist (-42 / 10, 0) (0, 945 / 1000) = 4305 / 1000 := dist_of_sq (by norm_num) (by norm_num)
  have h3 : dist (42 / 10, 0) (0, 945 / 1000) = 4305 / 1000 := dist_of_sq (by norm_num) (by norm_num)
  have he : edges (-42 / 10, 0) (42 / 10, 0) (0, 945 / 1000) = [84 / 10, 4305 / 1000, 4305 / 1000] := by simp only [edges, h1, h2, h3]
  have hn : NotCollinear (-42 / 10, 0) (42 / 10, 0) (0, 945 / 1000) := by unfold NotCollinear; norm_num
  refine ⟨⟨1, 8, 1, 1, 1⟩, (-42 / 10, 0), (42 / 10, 0), (0, 945 / 1000), by rw [hl]; norm_num, by rw [hl]; norm_num, hn,
    ⟨by rw [h1, h2]; norm_num, by rw [h1, h3]; norm_num⟩, ?_, ?_⟩
  · rw [C44_refine _ _ hn (by rw [he]; intro e h; simp only [List.mem_cons, List.not_mem_nil, or_false] at h; rcases h with rfl | rfl | rfl <;> norm_num), hl]
    refine ⟨?_, 84 / 10, by simp [he], by norm_num⟩
    unfold WantsCoarsening
    rw [radius_bound hn, he, h1, h2, h3]
    norm_num
  · rw [hl, dist_of_sq (x := 945 / 1000) (by norm_num) (by norm_num)]
    norm_num

/-- C63: the hypothesis of `C63_halved` about the permitted lengths holds for an indicator made by the constructor and for
one set up by `init`, at every distance, for non-negative factors. -/
theorem C63_ratio (ind : Ind) (hm : 0 < ind.maxDist) (hf : 0 ≤ ind.factor) {d : ℝ} (hd : 0 ≤ d) :
    (∀ h, 0 ≤ h → ind.minH = h / 4 → ind.maxH = 2 * h → 8 * (limits ind d).1 ≤ (limits ind d).2 ∧ 0 ≤ (limits ind d).1) ∧
    (∀ short long, 0 ≤ short → short ≤ long → ind.minH = short / 4 → ind.maxH = 2 * long →
      8 * (limits ind d).1 ≤ (limits ind d).2 ∧ 0 ≤ (limits ind d).1) := by
  have key : ∀ short long, 0 ≤ short → short ≤ long → ind.minH = short / 4 → ind.maxH = 2 * long →
      8 * (limits ind d).1 ≤ (limits ind d).2 ∧ 0 ≤ (limits ind d).1 := by
    intro short long h0 h1 e1 e2
    obtain ⟨l, hl⟩ : ∃ l, l = min ind.maxDist d / ind.maxDist := ⟨_, rfl⟩
    have hl0 : 0 ≤ l := by rw [hl]; exact div_nonneg (le_min hm.le hd) hm.le
    have hl1 : l ≤ 1 := by rw [hl, div_le_one hm]; exact min_le_left _ _
    have hg : 0 ≤ (1 - l) + l * ind.factor := by nlinarith [mul_nonneg hl0 hf]
    have e3 : (limits ind d).1 = ((1 - l) + l * ind.factor) * (short / 4) := by
      simp only [limits, ← hl, e1]; ring
    have e4 : (limits ind d).2 = ((1 - l) + l * ind.factor) * (2 * long) := by
      simp only [limits, ← hl, e2]; ring
    rw [e3, e4]
    constructor
    · nlinarith [mul_le_mul_of_nonneg_left h1 hg]
    · exact mul_nonneg hg (by linarith)
  exact ⟨fun h h0 e1 e2 => key h h h0 (le_refl _) e1 e2, key⟩

end Verif.Indicator
