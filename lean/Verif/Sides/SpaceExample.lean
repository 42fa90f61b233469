import Verif.Sides.Space

/-!
# Sides of the interface in three dimensions: an example

A vertex is inserted into a tetrahedron. Three facets that enclose one of the four elements, together with a facet of the boundary, are added to the interface.
-/

namespace Verif.Sides

open Finset Verif.Refine Verif.MoveGeo

/-- One element. -/
noncomputable def tet : Mesh (Fin 3 → ℝ) 3 where
  cells := [![0, 1, 2, 3]]
  pos v := if v = 1 then ![1, 0, 0] else if v = 2 then ![0, 1, 0] else if v = 3 then ![0, 0, 1] else 0

/-- The grid without interface. -/
noncomputable def start3 : Grid3 := ⟨tet, ⟨[], fun _ => false, [], 4⟩⟩

theorem proper_tet : Proper ℝ tet := by
  have hp : Positive tet := by
    intro c hc
    simp only [tet, List.mem_singleton] at hc
    subst hc
    rw [volume_space, Matrix.det_fin_three]
    simp [tet]
  refine ⟨⟨fun c hc => independent_of_volume (hp c hc).ne', ?_⟩, hp, by simp [Once, tet]⟩
  intro c hc c' hc'
  have e : c' = c := by
    simp only [tet, List.mem_singleton] at hc hc'
    rw [hc, hc']
  rw [e, Set.inter_self, Set.inter_self, ← Set.range_comp]
  rfl

theorem valid_start3 : Valid3 start3 := ⟨proper_tet, by simp [start3]⟩

/-- A vertex is inserted at `(1/4, 1/4, 1/4)`. -/
noncomputable def fanMesh3 : Mesh (Fin 3 → ℝ) 3 := insertAt tet (Finset.univ.image ![0, 1, 2, 3]) 4 ![1 / 4, 1 / 4, 1 / 4]

noncomputable def fan3 : Grid3 := ⟨fanMesh3, start3.s⟩

theorem fan3_cells : fanMesh3.cells = [![4, 1, 2, 3], ![0, 4, 2, 3], ![0, 1, 4, 3], ![0, 1, 2, 4]] := by decide +kernel

theorem in_tet : ![1 / 4, 1 / 4, 1 / 4] ∈ hull ℝ tet ![0, 1, 2, 3] ∧
    ∀ i, (![1 / 4, 1 / 4, 1 / 4] : Fin 3 → ℝ) ∉ convexHull ℝ (tet.pos '' ((![0, 1, 2, 3] : Fin 4 → ℕ) '' {i}ᶜ)) := by
  refine in_element proper_tet (c := ![0, 1, 2, 3]) (x := ![1 / 4, 1 / 4, 1 / 4]) (by simp [tet]) ⟨![1 / 4, 1 / 4, 1 / 4, 1 / 4], ?_, ?_, ?_⟩
  · intro i
    fin_cases i <;> norm_num
  · norm_num [Fin.sum_univ_succ]
  · ext i
    fin_cases i <;> simp [Fin.sum_univ_four, tet]

theorem act_fan3 : Act3 start3 fan3 := by
  refine Act3.adapt (g := start3) (rs := [insertVertexInCell ![1 / 4, 1 / 4, 1 / 4]]) (Run.cons (Refine.Step.cell (c := ![0, 1, 2, 3]) (by simp [start3, tet]) in_tet.1 ?_) Run.nil) ?_ ?_ ?_
  · intro c hc i
    simp only [start3, tet, List.mem_singleton] at hc
    subst hc
    fin_cases i <;> simp
  · intro r hr e he
    rw [List.mem_singleton] at hr
    subst hr
    simp [insertVertexInCell] at he
  · intro pre r post M1 h hr _
    cases pre with
    | nil =>
      cases hr
      simp only [List.nil_append, List.cons.injEq] at h
      rw [← h.1]
      refine ⟨⟨![0, 1, 2, 3], by simp [start3, tet], in_tet.1⟩, fun c hc => ?_⟩
      simp only [start3, tet, List.mem_singleton] at hc
      subst hc
      exact in_tet.2
    | cons a pre =>
      simp only [List.cons_append, List.cons.injEq] at h
      exact absurd h.2 (by simp)
  · intro r hr a b he
    rw [List.mem_singleton] at hr
    subst hr
    simp [insertVertexInCell] at he

/-- Two of the facets. -/
noncomputable def open3 : Grid3 := ⟨fanMesh3, InterfaceOps.addInterface (InterfaceOps.addInterface fan3.s [0, 1, 4] 1) [2, 4, 0] 1⟩

/-- All three. -/
noncomputable def closed3 : Grid3 := ⟨fanMesh3, InterfaceOps.addInterface open3.s [4, 1, 2] 1⟩

theorem history_open3 : Relation.ReflTransGen Act3 start3 open3 :=
  .tail (.tail (.tail .refl act_fan3) (.add (a := 0) (b := 1) (c := 4) (k := 1) (by decide) (by decide) (by decide)
    ⟨![0, 1, 2, 4], by show _ ∈ fanMesh3.cells; rw [fan3_cells]; simp, by decide⟩))
    (.add (a := 2) (b := 4) (c := 0) (k := 1) (by decide) (by decide) (by decide) ⟨![0, 1, 2, 4], by show _ ∈ fanMesh3.cells; rw [fan3_cells]; simp, by decide⟩)

theorem valid_open3 : Valid3 open3 := (C209_history valid_start3 history_open3).1

theorem closed3_sides : ¬ SameSide closed3.M (interface3 closed3.s) ![0, 1, 2, 4] ![4, 1, 2, 3] := by
  refine not_same (fun c => c = ![0, 1, 2, 4]) ?_ rfl (by decide)
  rintro c c' rfl ⟨-, hc', F, hF, h1, h2, hno⟩
  have hc' : c' ∈ fanMesh3.cells := hc'
  rw [fan3_cells] at hc'
  have key : ∀ c' ∈ ([![4, 1, 2, 3], ![0, 4, 2, 3], ![0, 1, 4, 3], ![0, 1, 2, 4]] : List (Fin 4 → ℕ)), ∀ F ∈ Finset.powersetCard 3 (verts ![0, 1, 2, 4]), F ⊆ verts c' →
      c' = ![0, 1, 2, 4] ∨ F = {0, 1, 4} ∨ F = {2, 4, 0} ∨ F = {4, 1, 2} := by decide +kernel
  rcases key c' hc' F (Finset.mem_powersetCard.2 ⟨h1, hF⟩) h2 with h | rfl | rfl | rfl
  · exact h
  · exact absurd ⟨0, 1, 4, rfl, by decide +kernel⟩ hno
  · exact absurd ⟨2, 4, 0, rfl, by decide +kernel⟩ hno
  · exact absurd ⟨4, 1, 2, rfl, by decide +kernel⟩ hno

/-- The third facet closes the way. -/
example : (sides closed3.M (interface3 closed3.s)).ncard = (sides open3.M (interface3 open3.s)).ncard + 1 := by
  have := (C209_addInterface valid_open3 (a := 4) (b := 1) (c := 2) (by decide) (by decide) (by decide)
    ⟨![0, 1, 2, 4], by show _ ∈ fanMesh3.cells; rw [fan3_cells]; simp, by decide⟩ 1).2
  rw [if_pos] at this
  · exact this
  · refine ⟨by decide +kernel, ![0, 1, 2, 4], ?_, ![4, 1, 2, 3], ?_, by decide, by decide, closed3_sides⟩
    · show _ ∈ fanMesh3.cells
      rw [fan3_cells]; simp
    · show _ ∈ fanMesh3.cells
      rw [fan3_cells]; simp

/-- Edges of the interface, and the edge from the new vertex to the vertex on the other side, which is not in the interface. -/
example : isInterfaceEdge closed3.s 2 1 = true ∧ isInterfaceEdge closed3.s 4 0 = true ∧ isInterfaceEdge closed3.s 3 4 = false := by decide +kernel

/-- This edge can be halved: the enclosed element stays on a side of its own. -/
example : ∃ M', Act3 closed3 ⟨M', closed3.s⟩ ∧ M'.cells.length = 7 ∧ (sides M' (interface3 closed3.s)).ncard = (sides closed3.M (interface3 closed3.s)).ncard := by
  have hv : Valid3 closed3 := valid_open3.addInterface (a := 4) (b := 1) (c := 2) (by decide) (by decide) (by decide)
    ⟨![0, 1, 2, 4], by show _ ∈ fanMesh3.cells; rw [fan3_cells]; simp, by decide⟩ 1
  have hmem : ![4, 1, 2, 3] ∈ closed3.M.cells := by
    show _ ∈ fanMesh3.cells
    rw [fan3_cells]; simp
  have ha : Act3 closed3 ⟨insertAt closed3.M {4, 3} 5 ((1 / 2 : ℝ) • closed3.M.pos 4 + (1 - (1 / 2 : ℝ)) • closed3.M.pos 3), closed3.s⟩ := by
    refine Act3.adapt (g := closed3) (rs := [refineEdge closed3.M 4 3 (1 / 2 : ℝ)]) (Run.cons (Refine.Step.edge (c := ![4, 1, 2, 3]) hmem (by decide) ⟨0, rfl⟩ ⟨3, rfl⟩ ?_) Run.nil) ?_ ?_ ?_
    · show Fresh fanMesh3 5
      intro c hc i
      rw [fan3_cells] at hc
      exact (by decide : ∀ c ∈ ([![4, 1, 2, 3], ![0, 4, 2, 3], ![0, 1, 4, 3], ![0, 1, 2, 4]] : List (Fin 4 → ℕ)), ∀ i, c i ≠ 5) c hc i
    · intro r hr e _
      rw [List.mem_singleton] at hr
      subst hr
      exact ⟨![4, 1, 2, 3], hmem, 0, 3, by decide, 1 / 2, by norm_num, by norm_num, rfl⟩
    · intro pre r post M1 h _ hn
      have : r ∈ [refineEdge closed3.M 4 3 (1 / 2 : ℝ)] := by rw [h]; simp
      rw [List.mem_singleton] at this
      subst this
      simp [refineEdge] at hn
    · intro r hr a b he
      rw [List.mem_singleton] at hr
      subst hr
      simp only [refineEdge, Option.some.injEq, Prod.mk.injEq] at he
      obtain ⟨rfl, rfl⟩ := he
      decide +kernel
  refine ⟨_, ha, by decide +kernel, C209_number hv (.single ⟨ha, rfl⟩)⟩

end Verif.Sides
