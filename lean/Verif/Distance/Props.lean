import Mathlib.Analysis.Convex.Segment
import Mathlib.Order.Bounds.Basic
import Mathlib.Tactic.Ring
import Mathlib.Tactic.Linarith
import Mathlib.Tactic.FieldSimp
import Mathlib.Tactic.NormNum
import Mathlib.Tactic.LinearCombination
import Verif.Distance.Model

/-!
# C43: distance to the interface in 2D
-/

namespace Verif.Distance

/-! ## Specification -/

/-- Euclidean distance of two points. -/
noncomputable def dist (p x : Point) : ℝ := Real.sqrt ((p.1 - x.1) ^ 2 + (p.2 - x.2) ^ 2)

/-- `d` is the distance of `p` to the segment from `a` to `b`: the least distance to its points. -/
def IsDistToSegment (p a b : Point) (d : ℝ) : Prop := IsLeast (dist p '' segment ℝ a b) d

/-! ## Proofs -/

theorem norm2_sub (p a : Point) : norm2 (p - a) = dist p a := by
  unfold norm2 dist dot
  congr 1
  simp only [Prod.fst_sub, Prod.snd_sub]
  ring

theorem dist_le_of {p x y : Point} (h : (p.1 - x.1) ^ 2 + (p.2 - x.2) ^ 2 ≤ (p.1 - y.1) ^ 2 + (p.2 - y.2) ^ 2) : dist p x ≤ dist p y :=
  Real.sqrt_le_sqrt h

/-- C43: the value computed for a point and a segment is the Euclidean distance. -/
theorem C43_segment (p a b : Point) : IsDistToSegment p a b (computeDistance p a b) := by
  unfold computeDistance
  split
  · rename_i h
    rw [norm2_sub]
    refine ⟨⟨a, left_mem_segment ℝ a b, rfl⟩, ?_⟩
    rintro _ ⟨x, ⟨s, t, hs, ht, hst, rfl⟩, rfl⟩
    apply dist_le_of
    simp only [dot, Prod.fst_sub, Prod.snd_sub, Prod.fst_add, Prod.snd_add, Prod.smul_fst, Prod.smul_snd, smul_eq_mul] at *
    have hs' : s = 1 - t := by linarith
    subst hs'
    nlinarith [mul_nonneg ht h, mul_nonneg ht ht, sq_nonneg (t * (a.1 - b.1)), sq_nonneg (t * (a.2 - b.2))]
  · rename_i h1
    split
    · rename_i h
      rw [norm2_sub]
      refine ⟨⟨b, right_mem_segment ℝ a b, rfl⟩, ?_⟩
      rintro _ ⟨x, ⟨s, t, hs, ht, hst, rfl⟩, rfl⟩
      apply dist_le_of
      simp only [dot, Prod.fst_sub, Prod.snd_sub, Prod.fst_add, Prod.snd_add, Prod.smul_fst, Prod.smul_snd, smul_eq_mul] at *
      have ht' : t = 1 - s := by linarith
      subst ht'
      nlinarith [mul_nonneg hs h, sq_nonneg (s * (a.1 - b.1)), sq_nonneg (s * (a.2 - b.2))]
    · rename_i h2
      simp only [dot, Prod.fst_sub, Prod.snd_sub, ge_iff_le, not_le] at h1 h2
      -- length of the segment
      have hL : 0 < (a.1 - b.1) ^ 2 + (a.2 - b.2) ^ 2 := by nlinarith
      obtain ⟨L, hLdef⟩ : ∃ L, L = (a.1 - b.1) ^ 2 + (a.2 - b.2) ^ 2 := ⟨_, rfl⟩
      rw [← hLdef] at hL
      obtain ⟨c, hc⟩ : ∃ c, c = (a.1 - b.1) * (p.2 - a.2) - (a.2 - b.2) * (p.1 - a.1) := ⟨_, rfl⟩
      have hval : |signedDistance a b p| = Real.sqrt (c ^ 2 / L) := by
        have hn : norm2 (-(a.2 - b.2), a.1 - b.1) = Real.sqrt L := by
          unfold norm2 dot
          congr 1
          rw [hLdef]
          ring
        unfold signedDistance
        simp only [hn, dot, Prod.fst_sub, Prod.snd_sub]
        rw [Real.sqrt_div (sq_nonneg c), Real.sqrt_sq_eq_abs, ← abs_of_nonneg (Real.sqrt_nonneg L), ← abs_div, abs_of_nonneg (Real.sqrt_nonneg L)]
        congr 1
        rw [hc]
        field_simp
        ring
      -- parameter of the foot point
      obtain ⟨t, ht⟩ : ∃ t, t = ((b.1 - a.1) * (p.1 - a.1) + (b.2 - a.2) * (p.2 - a.2)) / L := ⟨_, rfl⟩
      have ht0 : 0 ≤ t := by rw [ht]; exact div_nonneg (by nlinarith) hL.le
      have ht1 : t ≤ 1 := by rw [ht, div_le_one hL, hLdef]; nlinarith
      rw [hval]
      have key : ∀ s : ℝ, (p.1 - ((1 - s) * a.1 + s * b.1)) ^ 2 + (p.2 - ((1 - s) * a.2 + s * b.2)) ^ 2 = c ^ 2 / L + L * (s - t) ^ 2 := by
        intro s
        rw [ht, hc]
        field_simp
        rw [hLdef]
        ring
      refine ⟨⟨(1 - t) • a + t • b, ⟨1 - t, t, by linarith, ht0, by ring, rfl⟩, ?_⟩, ?_⟩
      · unfold dist
        simp only [Prod.fst_add, Prod.snd_add, Prod.smul_fst, Prod.smul_snd, smul_eq_mul]
        rw [key t]
        simp
      · rintro _ ⟨x, ⟨s, u, hs, hu, hst, rfl⟩, rfl⟩
        unfold dist
        simp only [Prod.fst_add, Prod.snd_add, Prod.smul_fst, Prod.smul_snd, smul_eq_mul]
        have hs' : s = 1 - u := by linarith
        subst hs'
        rw [key u]
        apply Real.sqrt_le_sqrt
        nlinarith [mul_nonneg hL.le (sq_nonneg (u - t))]

/-- A point one above the middle of a segment, and a point beyond its end. -/
example : computeDistance (1, 1) (0, 0) (2, 0) = 1 ∧ computeDistance (3, 0) (0, 0) (2, 0) = 1 := by
  constructor
  · have hn : norm2 (-((0 : ℝ) - 0), (0 : ℝ) - 2) = 2 := by
      unfold norm2 dot
      rw [show (-((0 : ℝ) - 0)) * (-((0 : ℝ) - 0)) + ((0 : ℝ) - 2) * ((0 : ℝ) - 2) = 2 ^ 2 by norm_num]
      exact Real.sqrt_sq (by norm_num)
    have h1 : ¬ dot (((0 : ℝ), (0 : ℝ)) - (2, 0)) ((1, 1) - (0, 0)) ≥ 0 := by simp [dot]
    have h2 : ¬ dot (((2 : ℝ), (0 : ℝ)) - (0, 0)) ((1, 1) - (2, 0)) ≥ 0 := by simp [dot]
    rw [computeDistance, if_neg h1, if_neg h2, signedDistance]
    simp only [hn, dot, Prod.fst_sub, Prod.snd_sub]
    norm_num
  · have h1 : ¬ dot (((0 : ℝ), (0 : ℝ)) - (2, 0)) ((3, 0) - (0, 0)) ≥ 0 := by simp [dot]
    have h2 : dot (((2 : ℝ), (0 : ℝ)) - (0, 0)) ((3, 0) - (2, 0)) ≥ 0 := by simp [dot]; norm_num
    rw [computeDistance, if_neg h1, if_pos h2, norm2_sub]
    unfold dist
    norm_num

theorem computeDistance_nonneg (p a b : Point) : 0 ≤ computeDistance p a b := by
  obtain ⟨⟨x, _, hx⟩, _⟩ := C43_segment p a b
  rw [← hx]
  exact Real.sqrt_nonneg _

theorem handleFacet_length (vs : List (Bool × Point)) (ds : List ℝ) (s : Point × Point) (h : ds.length = vs.length) :
    (handleFacet vs ds s).length = vs.length := by simp [handleFacet, h]

theorem handleFacet_get {vs : List (Bool × Point)} {ds : List ℝ} {s : Point × Point} {i : Nat} {v : Bool × Point} {d : ℝ}
    (hv : vs[i]? = some v) (hd : ds[i]? = some d) :
    (handleFacet vs ds s)[i]? = some (if v.1 ∧ computeDistance v.2 s.1 s.2 < d then computeDistance v.2 s.1 s.2 else d) := by
  unfold handleFacet
  rw [List.getElem?_zipWith, hv, hd]

theorem fold_get {vs : List (Bool × Point)} {i : Nat} {p : Point} (hv : vs[i]? = some (true, p)) (segs : List (Point × Point)) :
    ∀ (ds : List ℝ) (d : ℝ), ds[i]? = some d →
      ∃ m, (segs.foldl (handleFacet vs) ds)[i]? = some m ∧ m ≤ d ∧ (∀ s ∈ segs, m ≤ computeDistance p s.1 s.2) ∧
        (m = d ∨ ∃ s ∈ segs, m = computeDistance p s.1 s.2) := by
  induction segs with
  | nil => intro ds d hd; exact ⟨d, hd, le_refl _, by simp, Or.inl rfl⟩
  | cons s segs ih =>
    intro ds d hd
    obtain ⟨m, h1, h2, h3, h4⟩ := ih _ _ (handleFacet_get (s := s) hv hd)
    simp only [true_and] at h2 h4
    refine ⟨m, h1, ?_, ?_, ?_⟩
    · split at h2
      · rename_i hlt; linarith
      · exact h2
    · intro s' hs'
      rcases List.mem_cons.1 hs' with rfl | hs'
      · split at h2
        · exact h2
        · rename_i hlt; linarith
      · exact h3 s' hs'
    · rcases h4 with h4 | ⟨s', hs', h4⟩
      · split at h4
        · exact Or.inr ⟨s, by simp, h4⟩
        · exact Or.inl h4
      · exact Or.inr ⟨s', by simp [hs'], h4⟩

/-- C43: after `update`, the value of an interior vertex is the minimum of the distances to the interface elements of this
process (and of `1e100`, the value if there are none). -/
theorem C43_minimum (vs : List (Bool × Point)) (segs : List (Point × Point)) {i : Nat} {p : Point} (hv : vs[i]? = some (true, p)) :
    ∃ m, (update vs segs)[i]? = some m ∧ 0 ≤ m ∧
      (∀ s ∈ segs, ∀ x ∈ segment ℝ s.1 s.2, m ≤ dist p x) ∧
      (m = 10 ^ 100 ∨ ∃ s ∈ segs, ∃ x ∈ segment ℝ s.1 s.2, m = dist p x) := by
  have hi : i < vs.length := by
    by_contra h
    rw [List.getElem?_eq_none (by omega)] at hv
    simp at hv
  have hd : (List.replicate vs.length high)[i]? = some high := by simp [hi]
  obtain ⟨m, h1, h2, h3, h4⟩ := fold_get hv segs _ _ hd
  refine ⟨m, h1, ?_, ?_, ?_⟩
  · rcases h4 with h4 | ⟨s, hs, h4⟩
    · rw [h4]; unfold high; positivity
    · rw [h4]; exact computeDistance_nonneg _ _ _
  · intro s hs x hx
    exact (h3 s hs).trans ((C43_segment p s.1 s.2).2 ⟨x, hx, rfl⟩)
  · rcases h4 with h4 | ⟨s, hs, h4⟩
    · exact Or.inl h4
    · obtain ⟨x, hx, he⟩ := (C43_segment p s.1 s.2).1
      exact Or.inr ⟨s, hs, x, hx, by rw [h4, he]⟩

theorem dist_eq_zero {p x : Point} : dist p x = 0 ↔ x = p := by
  unfold dist
  rw [Real.sqrt_eq_zero (by positivity)]
  constructor
  · intro h
    have h1 : (p.1 - x.1) ^ 2 = 0 := by nlinarith [sq_nonneg (p.1 - x.1), sq_nonneg (p.2 - x.2)]
    have h2 : (p.2 - x.2) ^ 2 = 0 := by nlinarith [sq_nonneg (p.1 - x.1), sq_nonneg (p.2 - x.2)]
    ext
    · have := pow_eq_zero_iff (two_ne_zero) |>.1 h1; linarith
    · have := pow_eq_zero_iff (two_ne_zero) |>.1 h2; linarith
  · rintro rfl; simp

/-- C43: the value is zero exactly for vertices on the interface. -/
theorem C43_zero (vs : List (Bool × Point)) (segs : List (Point × Point)) {i : Nat} {p : Point} (hv : vs[i]? = some (true, p)) :
    (update vs segs)[i]? = some 0 ↔ ∃ s ∈ segs, p ∈ segment ℝ s.1 s.2 := by
  obtain ⟨m, h1, h2, h3, h4⟩ := C43_minimum vs segs hv
  rw [h1, Option.some.injEq]
  constructor
  · rintro rfl
    rcases h4 with h4 | ⟨s, hs, x, hx, h4⟩
    · exfalso
      have : (0 : ℝ) < 10 ^ 100 := by positivity
      linarith
    · have := dist_eq_zero.1 h4.symm
      exact ⟨s, hs, this ▸ hx⟩
  · rintro ⟨s, hs, hp⟩
    have := h3 s hs p hp
    rw [dist_eq_zero.2 rfl] at this
    linarith

theorem fold_ghost {vs : List (Bool × Point)} {i : Nat} {p : Point} (hv : vs[i]? = some (false, p)) (segs : List (Point × Point)) :
    ∀ (ds : List ℝ) (d : ℝ), ds[i]? = some d → (segs.foldl (handleFacet vs) ds)[i]? = some d := by
  induction segs with
  | nil => intro ds d hd; exact hd
  | cons s segs ih =>
    intro ds d hd
    refine ih _ _ ?_
    rw [handleFacet_get (s := s) hv hd]
    simp

/-- Vertices that are not interior keep the value `1e100`, also on the interface: in parallel the statement holds for
interior vertices and the interface elements of the process only. -/
theorem C118_ghost_false (vs : List (Bool × Point)) (segs : List (Point × Point)) {i : Nat} {p : Point} (hv : vs[i]? = some (false, p)) :
    (update vs segs)[i]? = some (10 ^ 100) := by
  have hi : i < vs.length := by
    by_contra h
    rw [List.getElem?_eq_none (by omega)] at hv
    simp at hv
  exact fold_ghost hv segs _ _ (by simp [hi, high])

/-- A vertex that is a corner of a segment, seen as interior and not. -/
example : (update [(true, (0, 0)), (false, (0, 0))] [((0, 0), (1, 0))])[0]? = some 0 ∧
    (update [(true, (0, 0)), (false, (0, 0))] [((0, 0), (1, 0))])[1]? = some (10 ^ 100) :=
  ⟨(C43_zero _ _ rfl).2 ⟨((0, 0), (1, 0)), by simp, left_mem_segment ℝ _ _⟩, C118_ghost_false _ _ rfl⟩

/-- C43: the maximum is the largest value. -/
theorem C43_maximum (ds : List ℝ) (h : ∀ d ∈ ds, 0 ≤ d) : (∀ d ∈ ds, d ≤ maximum ds) ∧ (ds ≠ [] → maximum ds ∈ ds) := by
  have key : ∀ (ds : List ℝ) (m : ℝ), m ≤ ds.foldl (fun (m : ℝ) d => max d m) m ∧ (∀ d ∈ ds, d ≤ ds.foldl (fun (m : ℝ) d => max d m) m) ∧
      (ds.foldl (fun (m : ℝ) d => max d m) m = m ∨ ds.foldl (fun (m : ℝ) d => max d m) m ∈ ds) := by
    intro ds
    induction ds with
    | nil => intro m; simp
    | cons a ds ih =>
      intro m
      obtain ⟨h1, h2, h3⟩ := ih (max a m)
      refine ⟨(le_max_right a m).trans h1, ?_, ?_⟩
      · intro d hd
        rcases List.mem_cons.1 hd with rfl | hd
        · exact (le_max_left d m).trans h1
        · exact h2 d hd
      · rw [List.foldl_cons]
        rcases h3 with h3 | h3
        · rw [h3]
          rcases max_choice a m with h | h
          · rw [h]; exact Or.inr (by simp)
          · rw [h]; exact Or.inl rfl
        · exact Or.inr (List.mem_cons_of_mem _ h3)
  obtain ⟨_, h2, h3⟩ := key ds 0
  refine ⟨h2, ?_⟩
  intro hne
  rcases h3 with h3 | h3
  · cases ds with
    | nil => exact absurd rfl hne
    | cons a ds =>
      have h4 := h2 a (by simp)
      have h5 := h a (by simp)
      rw [h3] at h4
      have : a = 0 := le_antisymm h4 h5
      unfold maximum
      rw [h3, this]
      simp
  · exact h3

/-- C43: the value of an element is the average of those of its vertices, so it lies between the smallest and the largest of them. -/
theorem C43_element (ds : List ℝ) (i j k : Nat) {lo hi : ℝ} (h : ∀ n ∈ [i, j, k], lo ≤ ds.getD n 0 ∧ ds.getD n 0 ≤ hi) :
    elementDistance ds i j k = (([i, j, k].map fun n => ds.getD n 0).sum) / 3 ∧
    lo ≤ elementDistance ds i j k ∧ elementDistance ds i j k ≤ hi := by
  have h1 := h i (by simp)
  have h2 := h j (by simp)
  have h3 := h k (by simp)
  unfold elementDistance
  refine ⟨?_, ?_, ?_⟩
  · simp only [List.map_cons, List.map_nil, List.sum_cons, List.sum_nil]
    ring
  · linarith
  · linarith

/-- Three different values. -/
example : elementDistance [1, 2, 6] 0 1 2 = 3 := by norm_num [elementDistance]

end Verif.Distance
