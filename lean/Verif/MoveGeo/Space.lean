import Verif.MoveGeo.Ensured

/-!
# A movement in three dimensions
-/

namespace Verif.MoveGeo

open Verif.Refine Finset

/-- The reference tetrahedron. -/
def tetra : Mesh (Fin 3 → ℚ) 3 where
  cells := [![0, 1, 2, 3]]
  pos v := if v = 1 then ![1, 0, 0] else if v = 2 then ![0, 1, 0] else if v = 3 then ![0, 0, 1] else 0

theorem volume_tetra : signedVolume (fun i => tetra.pos (![0, 1, 2, 3] i)) = 1 := by
  rw [volume_space, Matrix.det_fin_three]
  simp [tetra]

theorem conforming_tetra : Conforming ℚ tetra := conforming_single (pos := tetra.pos) (by rw [volume_tetra]; norm_num)

/-- A vertex is inserted at `(1/5, 1/5, 1/5)`. -/
def inner : Mesh (Fin 3 → ℚ) 3 := insertAt tetra (univ.image ![0, 1, 2, 3]) 4 ![1 / 5, 1 / 5, 1 / 5]

theorem cells_inner : inner.cells = [![4, 1, 2, 3], ![0, 4, 2, 3], ![0, 1, 4, 3], ![0, 1, 2, 4]] := by decide

theorem hull_tetra : (![1 / 5, 1 / 5, 1 / 5] : Fin 3 → ℚ) ∈ hull ℚ tetra ![0, 1, 2, 3] := by
  have hv : 0 < signedVolume (fun i => tetra.pos (![0, 1, 2, 3] i)) := by rw [volume_tetra]; norm_num
  refine (closed_iff hv).2 fun i => ?_
  rw [volume_space, Matrix.det_fin_three]
  fin_cases i <;> simp [tetra, Function.update] <;> norm_num

theorem fresh_tetra : Fresh tetra 4 := by
  intro c hc i
  simp only [tetra, List.mem_singleton] at hc
  subst hc
  fin_cases i <;> simp

theorem run_inner : Run ℚ tetra [insertVertexInCell ![1 / 5, 1 / 5, 1 / 5]] inner :=
  Run.cons (Step.cell (c := ![0, 1, 2, 3]) (by simp [tetra]) hull_tetra fresh_tetra) Run.nil

theorem inElement_tetra : InElement ℚ tetra ![1 / 5, 1 / 5, 1 / 5] := by
  refine ⟨⟨![0, 1, 2, 3], by simp [tetra], hull_tetra⟩, ?_⟩
  intro c hc i hi
  simp only [tetra, List.mem_singleton] at hc
  subst hc
  have key : ∀ (f : (Fin 3 → ℚ) → ℚ), (∀ a b : ℚ, ∀ p q, f (a • p + b • q) = a * f p + b * f q) → ∀ k : ℚ, f ![1 / 5, 1 / 5, 1 / 5] ≠ k →
      (∀ v ∈ (![0, 1, 2, 3] : Fin 4 → ℕ) '' {i}ᶜ, f (tetra.pos v) = k) → False := by
    intro f hf k hk hv
    have hs : convexHull ℚ (tetra.pos '' ((![0, 1, 2, 3] : Fin 4 → ℕ) '' {i}ᶜ)) ⊆ {p | f p = k} := by
      refine convexHull_min ?_ ?_
      · rintro _ ⟨v, h, rfl⟩
        exact hv v h
      · intro p hp q hq a b _ _ hab
        simp only [Set.mem_ofPred_eq] at hp hq ⊢
        rw [hf, hp, hq, ← add_mul, hab, one_mul]
    exact hk (hs hi)
  fin_cases i
  · refine key (fun p => p 0 + p 1 + p 2) (fun a b p q => by simp; ring) 1 (by simp; norm_num) ?_
    rintro _ ⟨j, hj, rfl⟩
    fin_cases j <;> simp_all [tetra]
  · refine key (fun p => p 0) (fun a b p q => by simp) 0 (by norm_num) ?_
    rintro _ ⟨j, hj, rfl⟩
    fin_cases j <;> simp_all [tetra]
  · refine key (fun p => p 1) (fun a b p q => by simp) 0 (by norm_num) ?_
    rintro _ ⟨j, hj, rfl⟩
    fin_cases j <;> simp_all [tetra]
  · refine key (fun p => p 2) (fun a b p q => by simp) 0 (by simp) ?_
    rintro _ ⟨j, hj, rfl⟩
    fin_cases j <;> simp_all [tetra]

theorem conforming_inner : Conforming ℚ inner ∧ domain ℚ inner = domain ℚ tetra := by
  obtain ⟨h1, h2, -⟩ := C187_conforming (by decide) conforming_tetra run_inner (by
      intro r hr e he
      rw [List.mem_singleton] at hr
      subst hr
      simp [insertVertexInCell] at he) (by
      intro pre r post M1 h hr _
      cases pre with
      | nil =>
        cases hr
        simp only [List.nil_append, List.cons.injEq] at h
        rw [← h.1]
        exact inElement_tetra
      | cons a pre =>
        simp only [List.cons_append, List.cons.injEq] at h
        exact absurd h.2 (by simp))
  exact ⟨h1, h2⟩

theorem once_inner : Once inner := by
  have h : ∀ c c' : Fin 4 → ℕ, univ.image c ≠ univ.image c' → Set.range c ≠ Set.range c' := by
    intro c c' h e
    apply h
    ext v
    have := Set.ext_iff.1 e v
    simpa using this
  unfold Once
  rw [cells_inner]
  refine List.Pairwise.imp (h _ _) ?_
  decide

theorem inner_four : Inner inner 4 := by
  unfold Inner
  rw [cells_inner]
  decide

/-- The mesh `inner` with the vertex 4 as the only interface vertex. -/
def innerGrid : Movement.Grid (Fin 3 → ℚ) ℚ where
  dim3 := true
  verts := [0, 1, 2, 3, 4]
  index := fun v => v
  iverts := [4]
  iindex := fun _ => 0
  cells := inner.cells.map List.ofFn
  isInterface := fun v => v == 4
  segs := []
  corner := fun _ v => v != 4
  vol := fun pos c => match c with
    | [a, b, c, d] => signedVolume ![pos a, pos b, pos c, pos d] / 6
    | _ => 0
  outside := fun _ _ _ => true

theorem vol_inner (pos : ℕ → Fin 3 → ℚ) (c : Fin 4 → ℕ) : innerGrid.vol pos (List.ofFn c) = signedVolume (fun i => pos (c i)) / (3).factorial := by
  have h : ![pos (c 0), pos (c 1), pos (c 2), pos (c 3)] = fun i => pos (c i) := by
    funext i
    fin_cases i <;> rfl
  show signedVolume ![pos (c 0), pos (c 1), pos (c 2), pos (c 3)] / 6 = _
  rw [h]
  norm_num [Nat.factorial]

theorem describes_inner : Describes innerGrid inner := ⟨rfl, rfl, vol_inner⟩

theorem volumes_inner (pos : ℕ → Fin 3 → ℚ) (h : ∀ c ∈ inner.cells, 0 < signedVolume fun i => pos (c i)) : ∀ c ∈ innerGrid.cells, ¬ innerGrid.vol pos c ≤ 0 := by
  intro c hc
  obtain ⟨c, hc', rfl⟩ := List.mem_map.1 (show c ∈ inner.cells.map List.ofFn from hc)
  rw [vol_inner, not_le]
  exact div_pos (h c hc') (by norm_num [Nat.factorial])

theorem positive_inner : Positive inner := by
  intro c hc
  rw [cells_inner] at hc
  rw [volume_space, Matrix.det_fin_three]
  simp only [List.mem_cons, List.not_mem_nil, or_false] at hc
  rcases hc with rfl | rfl | rfl | rfl <;> simp [inner, insertAt, tetra, Function.update] <;> norm_num

/-- The inner vertex moves from `(1/5, 1/5, 1/5)` to `(1/2, 1/5, 1/5)`: the hypotheses of `C191_interface_space` hold. -/
theorem moved_inner : ∃ pos, Movement.moveInterface innerGrid [![3 / 10, 0, 0]] inner.pos = some pos ∧ pos 4 = ![1 / 2, 1 / 5, 1 / 5] ∧
    (Movement.ensureInterfaceMovement innerGrid [![3 / 10, 0, 0]] ⟨inner.pos, fun _ => none, [], []⟩).1 = .returned false ∧
    Conforming ℚ { inner with pos := pos } ∧ domain ℚ { inner with pos := pos } = domain ℚ tetra := by
  let pos : ℕ → Fin 3 → ℚ := fun x => if x = 4 then inner.pos x + ![3 / 10, 0, 0] else inner.pos x
  have hm : Movement.moveInterface innerGrid [![3 / 10, 0, 0]] inner.pos = some pos := rfl
  have hnew : ∀ c ∈ innerGrid.cells, ¬ innerGrid.vol pos c ≤ 0 := by
    refine volumes_inner pos fun c hc => ?_
    rw [cells_inner] at hc
    rw [volume_space, Matrix.det_fin_three]
    simp only [List.mem_cons, List.not_mem_nil, or_false] at hc
    rcases hc with rfl | rfl | rfl | rfl <;> simp [pos, inner, insertAt, tetra, Function.update] <;> norm_num
  have hfit : Movement.Fits innerGrid.iverts innerGrid.iindex [![3 / 10, 0, 0]] := ⟨by decide, by decide⟩
  have hret := Movement.C31_unchanged innerGrid [![3 / 10, 0, 0]] ⟨inner.pos, fun _ => none, [], []⟩ hfit pos (volumes_inner inner.pos positive_inner) hm hnew
  refine ⟨pos, hm, ?_, by rw [hret], ?_⟩
  · funext k
    fin_cases k <;> simp [pos, inner, insertAt, Function.update] <;> norm_num
  · have := (C191_interface_space describes_inner rfl conforming_inner.1 once_inner [![3 / 10, 0, 0]] ⟨inner.pos, fun _ => none, [], []⟩ rfl hfit (by
        intro v hv _ hi
        simp only [innerGrid, List.mem_singleton] at hv
        subst hv
        exact absurd inner_four hi) pos hm (by rw [hret]; simp)).2
    rw [conforming_inner.2] at this
    exact this

/-- The same movement by `moveVertices`: the hypotheses of `C191_vertices_space` hold. -/
example : ∃ pos, Movement.moveVertices innerGrid [0, 0, 0, 0, ![3 / 10, 0, 0]] inner.pos = some pos ∧
    (Movement.ensureVertexMovement innerGrid [0, 0, 0, 0, ![3 / 10, 0, 0]] ⟨inner.pos, fun _ => none, [], []⟩).1 = .returned false ∧
    Conforming ℚ { inner with pos := pos } ∧ domain ℚ { inner with pos := pos } = domain ℚ tetra := by
  have hfit : Movement.Fits innerGrid.verts innerGrid.index [(0 : Fin 3 → ℚ), 0, 0, 0, ![3 / 10, 0, 0]] := ⟨by decide, by decide⟩
  obtain ⟨pos, hm, hv, -⟩ := Movement.C33_vertices innerGrid [0, 0, 0, 0, ![3 / 10, 0, 0]] inner.pos hfit.1 hfit.2
  have h0 : pos 0 = inner.pos 0 := by rw [hv 0 (by simp [innerGrid]) 0 rfl, add_zero]
  have h1 : pos 1 = inner.pos 1 := by rw [hv 1 (by simp [innerGrid]) 0 rfl, add_zero]
  have h2 : pos 2 = inner.pos 2 := by rw [hv 2 (by simp [innerGrid]) 0 rfl, add_zero]
  have h3 : pos 3 = inner.pos 3 := by rw [hv 3 (by simp [innerGrid]) 0 rfl, add_zero]
  have h4 : pos 4 = inner.pos 4 + ![3 / 10, 0, 0] := hv 4 (by simp [innerGrid]) _ rfl
  have hnew : ∀ c ∈ innerGrid.cells, ¬ innerGrid.vol pos c ≤ 0 := by
    refine volumes_inner pos fun c hc => ?_
    rw [cells_inner] at hc
    rw [volume_space, Matrix.det_fin_three]
    simp only [List.mem_cons, List.not_mem_nil, or_false] at hc
    rcases hc with rfl | rfl | rfl | rfl <;> simp [h0, h1, h2, h3, h4, inner, insertAt, tetra, Function.update] <;> norm_num
  have hret := (Movement.C32_3d innerGrid rfl [0, 0, 0, 0, ![3 / 10, 0, 0]] ⟨inner.pos, fun _ => none, [], []⟩ hfit pos hm).2 hnew
  have := (C191_vertices_space describes_inner rfl conforming_inner.1 once_inner positive_inner [0, 0, 0, 0, ![3 / 10, 0, 0]] ⟨inner.pos, fun _ => none, [], []⟩
    rfl hfit (by
      intro v hv _ hi
      simp only [innerGrid, List.mem_cons, List.not_mem_nil, or_false] at hv
      rcases hv with rfl | rfl | rfl | rfl | rfl
      · rfl
      · rfl
      · rfl
      · rfl
      · exact absurd inner_four hi) pos hm (by rw [hret]; simp)).2
  rw [conforming_inner.2] at this
  exact ⟨pos, hm, by rw [hret], this⟩

end Verif.MoveGeo
