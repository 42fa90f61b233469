import Verif.Refine.Props
import Mathlib.Algebra.Order.Ring.Rat
import Mathlib.Algebra.Field.Rat
import Mathlib.Tactic.NormNum
import Mathlib.Data.Fin.VecNotation
import Mathlib.LinearAlgebra.Matrix.NonsingularInverse

/-!
# Refinement: requests that spoil the mesh, and examples
-/

namespace Verif.Refine

open Finset

variable {K : Type*} [Field K] [LinearOrder K] [IsStrictOrderedRing K] {d : ℕ}

/-- Elements of non-zero volume are not degenerate. -/
theorem independent_of_volume {p : Fin (d + 1) → Fin d → K} (h : signedVolume p ≠ 0) : AffineIndependent K p := by
  rw [affineIndependent_iff]
  have hl := Matrix.linearIndependent_rows_of_det_ne_zero h
  rw [linearIndependent_iff'] at hl
  intro s w h0 h1
  refine hl s w ?_
  funext l
  simp only [Matrix.row, Matrix.of_apply, Finset.sum_apply, Pi.smul_apply, smul_eq_mul, Pi.zero_apply]
  refine Fin.cases ?_ (fun l => ?_) l
  · simpa using h0
  · have := congrFun h1 l
    simpa [Finset.sum_apply] using this

theorem conforming_single {c : Fin (d + 1) → ℕ} {pos : ℕ → Fin d → K} (h : signedVolume (fun i => pos (c i)) ≠ 0) :
    Conforming K (⟨[c], pos⟩ : Mesh (Fin d → K) d) := by
  refine ⟨?_, ?_⟩
  · intro c' hc'
    rw [List.mem_singleton] at hc'
    subst hc'
    exact independent_of_volume h
  · intro c1 h1 c2 h2
    rw [List.mem_singleton] at h1 h2
    subst h1 h2
    rw [Set.inter_self, Set.inter_self, ← Set.range_comp]
    exact subset_rfl

/-- The triangle with the vertices `(0, 0)`, `(1, 0)`, `(0, 1)`. -/
def triangle : Mesh (Fin 2 → ℚ) 2 where
  cells := [![0, 1, 2]]
  pos v := if v = 0 then ![0, 0] else if v = 1 then ![1, 0] else if v = 2 then ![0, 1] else 0

/-- In the plane this is the usual cross product. -/
theorem volume_plane (p : Fin 3 → Fin 2 → K) :
    signedVolume p = (p 1 0 - p 0 0) * (p 2 1 - p 0 1) - (p 1 1 - p 0 1) * (p 2 0 - p 0 0) := by
  unfold signedVolume
  rw [Matrix.det_fin_three]
  have h0 : ∀ i, (Fin.cons 1 (p i) : Fin 3 → K) 0 = 1 := fun i => rfl
  have h1 : ∀ i, (Fin.cons 1 (p i) : Fin 3 → K) 1 = p i 0 := fun i => rfl
  have h2 : ∀ i, (Fin.cons 1 (p i) : Fin 3 → K) 2 = p i 1 := fun i => rfl
  simp only [Matrix.of_apply, h0, h1, h2]
  ring

theorem volume_triangle : signedVolume (fun i => triangle.pos (![0, 1, 2] i)) = 1 := by
  rw [volume_plane]
  simp [triangle]

theorem conforming_triangle : Conforming ℚ triangle :=
  conforming_single (pos := triangle.pos) (by rw [volume_triangle]; norm_num)

theorem fresh_triangle : Fresh triangle 3 := by
  intro c hc i
  simp only [triangle, List.mem_singleton] at hc
  subst hc
  fin_cases i <;> decide

theorem edge_triangle (t : ℚ) : Run ℚ triangle [refineEdge triangle 0 1 t] (insertAt triangle {0, 1} 3 (t • triangle.pos 0 + (1 - t) • triangle.pos 1)) :=
  Run.cons (Step.edge (c := ![0, 1, 2]) (by simp [triangle]) (by decide) ⟨0, rfl⟩ ⟨1, rfl⟩ fresh_triangle) Run.nil

theorem mem_edge_triangle (t : ℚ) : ![0, 3, 2] ∈ (insertAt triangle {0, 1} 3 (t • triangle.pos 0 + (1 - t) • triangle.pos 1)).cells := by
  rw [mem_insertAt]
  refine ⟨![0, 1, 2], by simp [triangle], Or.inr ⟨by decide, 1, by decide, ?_⟩⟩
  decide

theorem volume_edge_triangle (t : ℚ) :
    signedVolume (fun i => (insertAt triangle {0, 1} 3 (t • triangle.pos 0 + (1 - t) • triangle.pos 1)).pos (![0, 3, 2] i)) = 1 - t := by
  rw [volume_plane]
  simp [triangle, insertAt, Function.update]

/-! ## Requests that spoil the mesh -/

/-- **C188** The claim for `refineEdge` without a condition on `where` is false: with `where = 2` the new vertex lies on the other side of the first corner
and one of the new elements has negative orientation. -/
theorem C188_where_false : ¬ ∀ (M M' : Mesh (Fin 2 → ℚ) 2) (c : Fin 3 → ℕ) (i j : Fin 3) (t : ℚ), Conforming ℚ M →
    (∀ c ∈ M.cells, 0 < signedVolume fun i => M.pos (c i)) → c ∈ M.cells → i ≠ j → Run ℚ M [refineEdge M (c i) (c j) t] M' →
    ∀ c ∈ M'.cells, 0 ≤ signedVolume fun i => M'.pos (c i) := by
  intro h
  have := h triangle _ ![0, 1, 2] 0 1 2 conforming_triangle (by
    intro c hc
    simp only [triangle, List.mem_singleton] at hc
    subst hc
    have := volume_triangle
    simp only [triangle] at this ⊢
    rw [this]
    norm_num) (by simp [triangle]) (by decide) (edge_triangle 2) _ (mem_edge_triangle 2)
  rw [volume_edge_triangle] at this
  norm_num at this

/-- **C188** With `where = 1` (a corner of the edge) one of the new elements is degenerate. -/
theorem C188_corner_false : ¬ ∀ (M M' : Mesh (Fin 2 → ℚ) 2) (c : Fin 3 → ℕ) (i j : Fin 3) (t : ℚ), 0 ≤ t → t ≤ 1 → Conforming ℚ M →
    (∀ c ∈ M.cells, 0 < signedVolume fun i => M.pos (c i)) → c ∈ M.cells → i ≠ j → Run ℚ M [refineEdge M (c i) (c j) t] M' →
    ∀ c ∈ M'.cells, signedVolume (fun i => M'.pos (c i)) ≠ 0 := by
  intro h
  refine h triangle _ ![0, 1, 2] 0 1 1 (by norm_num) (by norm_num) conforming_triangle (by
    intro c hc
    simp only [triangle, List.mem_singleton] at hc
    subst hc
    have := volume_triangle
    simp only [triangle] at this ⊢
    rw [this]
    norm_num) (by simp [triangle]) (by decide) (edge_triangle 1) _ (mem_edge_triangle 1) ?_
  rw [volume_edge_triangle]
  norm_num

theorem convex_pair {V : Type*} [AddCommGroup V] [Module K V] {s : Set V} {x y : V} (hx : x ∈ s) (hy : y ∈ s) (a b : K) (ha : 0 ≤ a) (hb : 0 ≤ b)
    (hab : a + b = 1) : a • x + b • y ∈ convexHull K s :=
  convex_convexHull K s (subset_convexHull K s hx) (subset_convexHull K s hy) ha hb hab

/-- **C188** `insertVertexInCell` for a position in the domain does not always give a proper mesh: if the position lies on an edge, the element found by
`locate` is split into three and one of them is degenerate; the element on the other side of the edge is not split. -/
theorem C188_position_false : ¬ ∀ (M M' : Mesh (Fin 2 → ℚ) 2) (x : Fin 2 → ℚ), Conforming ℚ M → x ∈ domain ℚ M →
    Run ℚ M [insertVertexInCell x] M' → ∀ c ∈ M'.cells, signedVolume (fun i => M'.pos (c i)) ≠ 0 := by
  intro h
  have hx : (![1 / 2, 0] : Fin 2 → ℚ) ∈ hull ℚ triangle ![0, 1, 2] := by
    have : (![1 / 2, 0] : Fin 2 → ℚ) = (1 / 2 : ℚ) • triangle.pos 0 + (1 / 2 : ℚ) • triangle.pos 1 := by
      funext i
      fin_cases i <;> simp [triangle]
    rw [this]
    exact convex_pair (s := Set.range fun i => triangle.pos ((![0, 1, 2] : Fin 3 → ℕ) i)) ⟨0, rfl⟩ ⟨1, rfl⟩ _ _ (by norm_num) (by norm_num) (by norm_num)
  refine h triangle (insertAt triangle (univ.image ![0, 1, 2]) 3 ![1 / 2, 0]) ![1 / 2, 0] conforming_triangle ⟨![0, 1, 2], by simp [triangle], hx⟩
    (Run.cons (Step.cell (c := ![0, 1, 2]) (by simp [triangle]) hx fresh_triangle) Run.nil) ![0, 1, 3] ?_ ?_
  · rw [mem_insertAt]
    exact ⟨![0, 1, 2], by simp [triangle], Or.inr ⟨by decide, 2, by decide, by decide⟩⟩
  · rw [volume_plane]
    simp [triangle, insertAt, Function.update]

/-- **C188** A position outside the domain is accepted as well, and the domain grows: the new vertex `(1, 1)` lies opposite the edge from `(1, 0)` to
`(0, 1)` and is the vertex of a new element. -/
theorem C188_outside_false : ¬ ∀ (M M' : Mesh (Fin 2 → ℚ) 2) (x : Fin 2 → ℚ), Conforming ℚ M →
    Run ℚ M [insertVertexInCell x] M' → domain ℚ M' = domain ℚ M := by
  intro h
  have hx : ∀ c ∈ triangle.cells, (![1, 1] : Fin 2 → ℚ) ∉ hull ℚ triangle c := by
    intro c hc hx
    simp only [triangle, List.mem_singleton] at hc
    subst hc
    have hs : hull ℚ triangle ![0, 1, 2] ⊆ {p : Fin 2 → ℚ | p 0 + p 1 ≤ 1} := by
      refine convexHull_min ?_ ?_
      · rintro _ ⟨i, rfl⟩
        fin_cases i <;> simp [triangle]
      · intro p hp q hq a b ha hb hab
        simp only [Set.mem_ofPred_eq, Pi.add_apply, Pi.smul_apply, smul_eq_mul] at hp hq ⊢
        nlinarith
    have := hs hx
    norm_num at this
  have := h triangle _ ![1, 1] conforming_triangle
    (Run.cons (Step.outside (c := ![0, 1, 2]) (i := 0) (m := 3) (by simp [triangle]) hx (by simp [triangle]) fresh_triangle) Run.nil)
  have h1 : (![1, 1] : Fin 2 → ℚ) ∈ domain ℚ triangle := by
    rw [← this]
    refine ⟨_, List.mem_cons_self, subset_convexHull _ _ ⟨2, ?_⟩⟩
    simp [Function.update, Equiv.swap_apply_right, Fin.last]
  obtain ⟨c, hc, h2⟩ := h1
  exact hx c hc h2

/-! ## Examples -/

/-- Two edges of the triangle are refined, the first at `where = 1/4`, the second in the middle; the hypotheses of `C187_conforming` and `C187_volume` hold and
the result has three elements. -/
example : ∃ M' : Mesh (Fin 2 → ℚ) 2, Run ℚ triangle [refineEdge triangle 0 1 (1 / 4 : ℚ), refineMarked ℚ triangle 1 2] M' ∧ M'.cells.length = 3 ∧
    Conforming ℚ M' ∧ domain ℚ M' = domain ℚ triangle ∧ totalVolume M' = 1 := by
  have hrun : Run ℚ triangle [refineEdge triangle 0 1 (1 / 4 : ℚ), refineMarked ℚ triangle 1 2]
      (insertAt (insertAt triangle {0, 1} 3 ((1 / 4 : ℚ) • triangle.pos 0 + (1 - (1 / 4 : ℚ)) • triangle.pos 1)) {1, 2} 4
        ((1 / 2 : ℚ) • (triangle.pos 1 + triangle.pos 2))) := by
    refine Run.cons (Step.edge (c := ![0, 1, 2]) (by simp [triangle]) (by decide) ⟨0, rfl⟩ ⟨1, rfl⟩ fresh_triangle)
      (Run.cons (Step.edge (c := ![3, 1, 2]) ?_ (by decide) ⟨1, rfl⟩ ⟨2, rfl⟩ ?_) Run.nil)
    · rw [mem_insertAt]
      exact ⟨![0, 1, 2], by simp [triangle], Or.inr ⟨by decide, 0, by decide, by decide⟩⟩
    · intro c hc i
      obtain ⟨c', hc', ⟨-, rfl⟩ | ⟨-, j, -, rfl⟩⟩ := mem_insertAt.1 hc <;> simp only [triangle, List.mem_singleton] at hc' <;> subst hc'
      · revert i
        decide
      · revert i j
        decide
  have hedge : ∀ r ∈ [refineEdge triangle 0 1 (1 / 4 : ℚ), refineMarked ℚ triangle 1 2], ∀ e, r.edge = some e → OnEdge ℚ triangle r := by
    intro r hr e _
    simp only [List.mem_cons, List.not_mem_nil, or_false] at hr
    rcases hr with rfl | rfl
    · exact ⟨![0, 1, 2], by simp [triangle], 0, 1, by decide, 1 / 4, by norm_num, by norm_num, rfl⟩
    · exact C187_marked (c := ![0, 1, 2]) (by simp [triangle]) (i := 1) (j := 2) (by decide)
  have hcell : ∀ pre r post M1, [refineEdge triangle 0 1 (1 / 4 : ℚ), refineMarked ℚ triangle 1 2] = pre ++ r :: post → Run ℚ triangle pre M1 →
      r.edge = none → InElement ℚ M1 r.point := by
    intro pre r post M1 h _ hr
    have : r ∈ [refineEdge triangle 0 1 (1 / 4 : ℚ), refineMarked ℚ triangle 1 2] := by rw [h]; simp
    simp only [List.mem_cons, List.not_mem_nil, or_false] at this
    rcases this with rfl | rfl <;> simp [refineEdge, refineMarked] at hr
  obtain ⟨h1, h2, -⟩ := C187_conforming (by decide) conforming_triangle hrun hedge hcell
  obtain ⟨-, h3⟩ := C187_volume (by decide) conforming_triangle hrun hedge hcell (by
    intro c hc
    simp only [triangle, List.mem_singleton] at hc
    subst hc
    have := volume_triangle
    simp only [triangle] at this ⊢
    rw [this]
    norm_num)
  refine ⟨_, hrun, by decide, h1, h2, h3.trans ?_⟩
  have := volume_triangle
  simp only [totalVolume, triangle, List.map_cons, List.map_nil, List.sum_cons, List.sum_nil, add_zero] at this ⊢
  exact this

theorem hull_triangle : (![1 / 4, 1 / 4] : Fin 2 → ℚ) ∈ hull ℚ triangle ![0, 1, 2] := by
  have : (![1 / 4, 1 / 4] : Fin 2 → ℚ) = (1 / 2 : ℚ) • triangle.pos 0 + (1 / 2 : ℚ) • ((1 / 2 : ℚ) • triangle.pos 1 + (1 / 2 : ℚ) • triangle.pos 2) := by
    funext i
    fin_cases i <;> simp [triangle] <;> norm_num
  rw [this]
  exact convex_convexHull ℚ (Set.range fun i => triangle.pos ((![0, 1, 2] : Fin 3 → ℕ) i)) (subset_convexHull ℚ _ ⟨0, rfl⟩) (convex_pair (s := Set.range fun i => triangle.pos ((![0, 1, 2] : Fin 3 → ℕ) i)) ⟨1, rfl⟩ ⟨2, rfl⟩ _ _ (by norm_num) (by norm_num) (by norm_num))
    (by norm_num) (by norm_num) (by norm_num)

/-- The triangle with a vertex inserted at `(1/4, 1/4)`. -/
def centered : Mesh (Fin 2 → ℚ) 2 := insertAt triangle (univ.image ![0, 1, 2]) 3 ![1 / 4, 1 / 4]

theorem run_centered : Run ℚ triangle [insertVertexInCell ![1 / 4, 1 / 4]] centered :=
  Run.cons (Step.cell (c := ![0, 1, 2]) (by simp [triangle]) hull_triangle fresh_triangle) Run.nil

theorem inElement_triangle : InElement ℚ triangle ![1 / 4, 1 / 4] := by
  refine ⟨⟨![0, 1, 2], by simp [triangle], hull_triangle⟩, ?_⟩
  intro c hc i hi
  simp only [triangle, List.mem_singleton] at hc
  subst hc
  have key : ∀ (f : (Fin 2 → ℚ) → ℚ), (∀ a b : ℚ, ∀ p q, f (a • p + b • q) = a * f p + b * f q) → ∀ k : ℚ, f ![1 / 4, 1 / 4] ≠ k →
      (∀ v ∈ (![0, 1, 2] : Fin 3 → ℕ) '' {i}ᶜ, f (triangle.pos v) = k) → False := by
    intro f hf k hk hv
    have hs : convexHull ℚ (triangle.pos '' ((![0, 1, 2] : Fin 3 → ℕ) '' {i}ᶜ)) ⊆ {p | f p = k} := by
      refine convexHull_min ?_ ?_
      · rintro _ ⟨v, h, rfl⟩
        exact hv v h
      · intro p hp q hq a b _ _ hab
        simp only [Set.mem_ofPred_eq] at hp hq ⊢
        rw [hf, hp, hq, ← add_mul, hab, one_mul]
    exact hk (hs hi)
  fin_cases i
  · refine key (fun p => p 0 + p 1) (fun a b p q => by simp; ring) 1 (by norm_num) ?_
    rintro _ ⟨j, hj, rfl⟩
    fin_cases j <;> simp_all [triangle]
  · refine key (fun p => p 0) (fun a b p q => by simp) 0 (by norm_num) ?_
    rintro _ ⟨j, hj, rfl⟩
    fin_cases j <;> simp_all [triangle]
  · refine key (fun p => p 1) (fun a b p q => by simp) 0 (by norm_num) ?_
    rintro _ ⟨j, hj, rfl⟩
    fin_cases j <;> simp_all [triangle]

/-- A vertex inserted at `(1/4, 1/4)` inside the triangle: the hypotheses of `C187_conforming` hold. -/
theorem conforming_centered : Conforming ℚ centered ∧ domain ℚ centered = domain ℚ triangle := by
  obtain ⟨h1, h2, -⟩ := C187_conforming (by decide) conforming_triangle run_centered (by
      intro r hr e he
      rw [List.mem_singleton] at hr
      subst hr
      simp [insertVertexInCell] at he) (by
      intro pre r post M1 h hr _
      cases pre with
      | nil =>
        cases hr
        simp only [List.nil_append, List.cons.injEq] at h
        rw [← h.1]
        exact inElement_triangle
      | cons a pre =>
        simp only [List.cons_append, List.cons.injEq] at h
        exact absurd h.2 (by simp))
  exact ⟨h1, h2⟩

end Verif.Refine
