import Verif.MoveGeo.Conforming
import Verif.Movement.Props
import Verif.Refine.Removal

/-!
# `ensureInterfaceMovement`, then `moveInterface`; movements of the boundary
-/

namespace Verif.MoveGeo

open Verif.Refine Finset

/-- The grid read by the functions of `Verif.Movement` is this mesh: it has these elements, and `signedVolume_` is the signed volume, in two dimensions (mmesh.hh:1168-1172,
`area` of CGAL's `Triangle_2`) half of the determinant, in three dimensions (1174-1178, `volume` of CGAL's `Tetrahedron_3`) a sixth of it. -/
structure Describes {K : Type} [Field K] {d : ℕ} (g : Movement.Grid (Fin d → K) K) (M : Mesh (Fin d → K) d) : Prop where
  dim : g.dim3 = decide (d = 3)
  cells : g.cells = M.cells.map List.ofFn
  vol : ∀ pos (c : Fin (d + 1) → ℕ), g.vol pos (List.ofFn c) = signedVolume (fun i => pos (c i)) / d.factorial

section
variable {K : Type} [Field K] [LinearOrder K] [IsStrictOrderedRing K] {d : ℕ} {g : Movement.Grid (Fin d → K) K} {M : Mesh (Fin d → K) d}

/-- The sixfold volume of a tetrahedron. -/
theorem volume_space (p : Fin 4 → Fin 3 → K) : signedVolume p = Matrix.det (Matrix.of fun i : Fin 3 => p i.succ - p 0) := by
  unfold signedVolume
  rw [Matrix.det_fin_three, Matrix.det_succ_row_zero]
  simp only [Fin.sum_univ_four, Matrix.det_fin_three, Matrix.submatrix_apply, Matrix.of_apply, Pi.sub_apply]
  have h0 : ∀ i, (Fin.cons 1 (p i) : Fin 4 → K) 0 = 1 := fun i => rfl
  have h1 : ∀ i, (Fin.cons 1 (p i) : Fin 4 → K) 1 = p i 0 := fun i => rfl
  have h2 : ∀ i, (Fin.cons 1 (p i) : Fin 4 → K) 2 = p i 1 := fun i => rfl
  have h3 : ∀ i, (Fin.cons 1 (p i) : Fin 4 → K) 3 = p i 2 := fun i => rfl
  simp [Fin.succAbove, h0, h1, h2, h3, show (3 : Fin 4) = Fin.succ 2 from rfl]
  ring

theorem Describes.positive (hg : Describes g M) {pos : ℕ → Fin d → K} (h : ∀ c ∈ g.cells, ¬ g.vol pos c ≤ 0) : Positive { M with pos := pos } := by
  intro c hc
  have := h (List.ofFn c) (by
    rw [hg.cells]
    exact List.mem_map.2 ⟨c, hc, rfl⟩)
  rw [hg.vol, not_le] at this
  have hf : (0 : K) < d.factorial := by exact_mod_cast d.factorial_pos
  exact (div_pos_iff_of_pos_right hf).1 this

/-- The mesh after a movement that keeps the boundary and gives positive volumes. -/
theorem result {pos : ℕ → Fin d → K} (hM : Conforming K M) (h1 : Once M) (hp : Positive M) (hp' : Positive { M with pos := pos })
    (hb : ∀ v ∈ vertices M, ¬ Inner M v → pos v = M.pos v) :
    Conforming K { M with pos := pos } ∧ domain K { M with pos := pos } = domain K M := by
  have e : moved M (fun v => pos v - M.pos v) = { M with pos := pos } := by
    unfold moved
    simp only [add_sub_cancel]
  rw [← e] at hp' ⊢
  have hs : ∀ v ∈ vertices M, ¬ Inner M v → pos v - M.pos v = 0 := fun v hv hi => by rw [hb v hv hi, sub_self]
  exact ⟨C191_conforming hM hp h1 hs hp', C191_domain hM hp h1 hs hp'⟩

/-- The positions after `moveInterface`, if no interface vertex on the boundary is moved. -/
theorem interface_fixed (shifts : List (Fin d → K)) (s : Movement.State (Fin d → K)) (hpos : s.pos = M.pos) (hfit : Movement.Fits g.iverts g.iindex shifts)
    (hb : ∀ v ∈ g.iverts, v ∈ vertices M → ¬ Inner M v → shifts[g.iindex v]? = some 0) (pos : ℕ → Fin d → K)
    (hm : Movement.moveInterface g shifts s.pos = some pos) : ∀ v ∈ vertices M, ¬ Inner M v → pos v = M.pos v := by
  intro v hv hi
  obtain ⟨pos', e1, e2, e3⟩ := Movement.C33_interface g shifts s.pos hfit.1 hfit.2
  rw [e1] at hm
  obtain rfl : pos' = pos := by simpa using hm
  by_cases hvi : v ∈ g.iverts
  · rw [e2 v hvi 0 (hb v hvi hv hi), add_zero, hpos]
  · rw [e3 v hvi, hpos]

/-- The positions after `moveVertices`, if no vertex on the boundary is moved. -/
theorem vertices_fixed (shifts : List (Fin d → K)) (s : Movement.State (Fin d → K)) (hpos : s.pos = M.pos) (hfit : Movement.Fits g.verts g.index shifts)
    (hb : ∀ v ∈ g.verts, v ∈ vertices M → ¬ Inner M v → shifts[g.index v]? = some 0) (pos : ℕ → Fin d → K)
    (hm : Movement.moveVertices g shifts s.pos = some pos) : ∀ v ∈ vertices M, ¬ Inner M v → pos v = M.pos v := by
  intro v hv hi
  obtain ⟨pos', e1, e2, e3⟩ := Movement.C33_vertices g shifts s.pos hfit.1 hfit.2
  rw [e1] at hm
  obtain rfl : pos' = pos := by simpa using hm
  by_cases hvi : v ∈ g.verts
  · rw [e2 v hvi 0 (hb v hvi hv hi), add_zero, hpos]
  · rw [e3 v hvi, hpos]

/-- That all volumes are positive beforehand is checked by `ensureInterfaceMovement`. -/
theorem positive_before (shifts : List (Fin d → K)) (s : Movement.State (Fin d → K)) {b : Bool}
    (h : (Movement.ensureInterfaceMovement g shifts s).1 = .returned b) : ∀ c ∈ g.cells, ¬ g.vol s.pos c ≤ 0 := by
  intro c hc hv
  rw [Movement.C31_invalid_before g shifts s ⟨c, hc, hv⟩] at h
  simp at h

/-- **C191** If no vertex is queued, no crossing is discarded, no interface vertex on the boundary is moved and `ensureInterfaceMovement` returns false, then
`moveInterface` with the same shifts gives a conforming mesh of the same domain. (That all volumes are positive beforehand is checked by the function.) -/
theorem C191_interface (hg : Describes g M) (hM : Conforming K M) (h1 : Once M) (shifts : List (Fin d → K)) (s : Movement.State (Fin d → K))
    (hpos : s.pos = M.pos) (hrem : s.remove = []) (hfit : Movement.Fits g.iverts g.iindex shifts)
    (hb : ∀ v ∈ g.iverts, v ∈ vertices M → ¬ Inner M v → shifts[g.iindex v]? = some 0) (pos : ℕ → Fin d → K) (hout : Movement.NoneDiscarded g pos)
    (hm : Movement.moveInterface g shifts s.pos = some pos) (h : (Movement.ensureInterfaceMovement g shifts s).1 = .returned false) :
    Conforming K { M with pos := pos } ∧ domain K { M with pos := pos } = domain K M := by
  have hp : Positive M := hg.positive (pos := M.pos) (hpos ▸ positive_before shifts s h)
  exact result hM h1 hp (hg.positive (Movement.C60_positive g shifts s hrem pos hout hm h)) (interface_fixed shifts s hpos hfit hb pos hm)

/-- **C191** The same for `ensureVertexMovement` and `moveVertices` in two dimensions, if the areas are positive beforehand and every element has a vertex that can
be removed (which is needed for the answer to be correct, C113). -/
theorem C191_vertices (hg : Describes g M) (hd : d = 2) (hM : Conforming K M) (h1 : Once M) (hp : Positive M) (shifts : List (Fin d → K))
    (s : Movement.State (Fin d → K)) (hpos : s.pos = M.pos) (hfit : Movement.Fits g.verts g.index shifts)
    (hb : ∀ v ∈ g.verts, v ∈ vertices M → ¬ Inner M v → shifts[g.index v]? = some 0) (pos : ℕ → Fin d → K)
    (hm : Movement.moveVertices g shifts s.pos = some pos)
    (hfree : ∀ c ∈ g.cells, ∃ v ∈ c, g.isInterface v = false ∧ ¬ Movement.IsCorner g s.flag pos v ∧ v ∉ s.remove)
    (h : (Movement.ensureVertexMovement g shifts s).1 = .returned false) :
    Conforming K { M with pos := pos } ∧ domain K { M with pos := pos } = domain K M := by
  have hd' : g.dim3 = false := by
    rw [hg.dim, hd]
    rfl
  exact result hM h1 hp (hg.positive (Movement.C113_positive_partial g hd' shifts s hfit pos hm hfree h)) (vertices_fixed shifts s hpos hfit hb pos hm)

/-- **C191** In three dimensions: if no interface vertex on the boundary is moved and `ensureInterfaceMovement` does not throw, then it returns false, and
`moveInterface` with the same shifts gives a conforming mesh of the same domain. -/
theorem C191_interface_space (hg : Describes g M) (hd : d = 3) (hM : Conforming K M) (h1 : Once M) (shifts : List (Fin d → K))
    (s : Movement.State (Fin d → K)) (hpos : s.pos = M.pos) (hfit : Movement.Fits g.iverts g.iindex shifts)
    (hb : ∀ v ∈ g.iverts, v ∈ vertices M → ¬ Inner M v → shifts[g.iindex v]? = some 0) (pos : ℕ → Fin d → K)
    (hm : Movement.moveInterface g shifts s.pos = some pos) (h : (Movement.ensureInterfaceMovement g shifts s).1 ≠ .thrown) :
    Movement.ensureInterfaceMovement g shifts s = (.returned false, s) ∧
      Conforming K { M with pos := pos } ∧ domain K { M with pos := pos } = domain K M := by
  have hd' : g.dim3 = true := by
    rw [hg.dim, hd]
    rfl
  have h0 : ∀ c ∈ g.cells, ¬ g.vol s.pos c ≤ 0 := by
    intro c hc hv
    rw [Movement.C31_invalid_before g shifts s ⟨c, hc, hv⟩] at h
    simp at h
  have h2 : ∀ c ∈ g.cells, ¬ g.vol pos c ≤ 0 := by
    intro c hc hv
    rw [Movement.C112_3d g hd' shifts s pos h0 hm ⟨c, hc, hv⟩] at h
    simp at h
  refine ⟨Movement.C31_unchanged g shifts s hfit pos h0 hm h2, result hM h1 (hg.positive (pos := M.pos) (hpos ▸ h0)) (hg.positive h2)
    (interface_fixed shifts s hpos hfit hb pos hm)⟩

/-- **C191** The same for `ensureVertexMovement` and `moveVertices`, if the volumes are positive beforehand. -/
theorem C191_vertices_space (hg : Describes g M) (hd : d = 3) (hM : Conforming K M) (h1 : Once M) (hp : Positive M) (shifts : List (Fin d → K))
    (s : Movement.State (Fin d → K)) (hpos : s.pos = M.pos) (hfit : Movement.Fits g.verts g.index shifts)
    (hb : ∀ v ∈ g.verts, v ∈ vertices M → ¬ Inner M v → shifts[g.index v]? = some 0) (pos : ℕ → Fin d → K)
    (hm : Movement.moveVertices g shifts s.pos = some pos) (h : (Movement.ensureVertexMovement g shifts s).1 ≠ .thrown) :
    Movement.ensureVertexMovement g shifts s = (.returned false, s) ∧
      Conforming K { M with pos := pos } ∧ domain K { M with pos := pos } = domain K M := by
  have hd' : g.dim3 = true := by
    rw [hg.dim, hd]
    rfl
  obtain ⟨t1, t2⟩ := Movement.C32_3d g hd' shifts s hfit pos hm
  have h2 : ∀ c ∈ g.cells, ¬ g.vol pos c ≤ 0 := by
    intro c hc hv
    rw [t1 ⟨c, hc, hv⟩] at h
    simp at h
  exact ⟨t2 h2, result hM h1 hp (hg.positive h2) (vertices_fixed shifts s hpos hfit hb pos hm)⟩

end

/-! ## Example -/

theorem positive_centered : Positive centered := by
  intro c hc
  rw [cells_centered] at hc
  rw [volume_plane]
  simp only [List.mem_cons, List.not_mem_nil, or_false] at hc
  rcases hc with rfl | rfl | rfl <;> simp [centered, insertAt, triangle, Function.update] <;> norm_num

theorem once_centered : Once centered := by
  have h : ∀ c c' : Fin 3 → ℕ, univ.image c ≠ univ.image c' → Set.range c ≠ Set.range c' := by
    intro c c' h e
    apply h
    ext v
    have := Set.ext_iff.1 e v
    simpa using this
  unfold Once
  rw [cells_centered]
  simp only [List.pairwise_cons, List.mem_cons, List.not_mem_nil, or_false, List.Pairwise.nil, and_true, false_imp_iff, imp_true_iff]
  refine ⟨?_, ?_⟩
  · rintro _ (rfl | rfl) <;> exact h _ _ (by decide)
  · rintro _ rfl
    exact h _ _ (by decide)

/-- The mesh `centered` with the inner vertex 3 as the only interface vertex. -/
def centeredGrid : Movement.Grid (Fin 2 → ℚ) ℚ where
  dim3 := false
  verts := [0, 1, 2, 3]
  index := fun v => v
  iverts := [3]
  iindex := fun _ => 0
  cells := centered.cells.map List.ofFn
  isInterface := fun v => v == 3
  segs := []
  corner := fun _ v => v != 3
  vol := fun pos c => match c with
    | [a, b, c] => signedVolume ![pos a, pos b, pos c] / 2
    | _ => 0
  outside := fun _ _ _ => true

theorem vol_centered (pos : ℕ → Fin 2 → ℚ) (c : Fin 3 → ℕ) : centeredGrid.vol pos (List.ofFn c) = signedVolume (fun i => pos (c i)) / (2).factorial := by
  have h : signedVolume ![pos (c 0), pos (c 1), pos (c 2)] = signedVolume fun i => pos (c i) := by
    rw [volume_plane, volume_plane]
    rfl
  show signedVolume ![pos (c 0), pos (c 1), pos (c 2)] / 2 = _
  rw [h]
  norm_num [Nat.factorial]

theorem volume_cons (p q r : Fin 2 → ℚ) : signedVolume ![p, q, r] = (q 0 - p 0) * (r 1 - p 1) - (q 1 - p 1) * (r 0 - p 0) := volume_plane _

/-- The vertex inside the triangle moves from `(1/4, 1/4)` to `(1/2, 1/4)`: the hypotheses of `C191_interface` hold. -/
example : ∃ pos, Movement.moveInterface centeredGrid [![1 / 4, 0]] centered.pos = some pos ∧ pos 3 = ![1 / 2, 1 / 4] ∧
    (Movement.ensureInterfaceMovement centeredGrid [![1 / 4, 0]] ⟨centered.pos, fun _ => none, [], []⟩).1 = .returned false ∧
    Conforming ℚ { centered with pos := pos } ∧ domain ℚ { centered with pos := pos } = domain ℚ triangle := by
  have hI : Inner centered 3 := by
    unfold Inner
    rw [cells_centered]
    decide
  let pos : ℕ → Fin 2 → ℚ := fun x => if x = 3 then centered.pos x + ![1 / 4, 0] else centered.pos x
  have hm : Movement.moveInterface centeredGrid [![1 / 4, 0]] centered.pos = some pos := rfl
  have hcells : centeredGrid.cells = [[3, 1, 2], [0, 3, 2], [0, 1, 3]] := by
    have : centeredGrid.cells = centered.cells.map List.ofFn := rfl
    rw [this, cells_centered]
    rfl
  have hvol : ∀ pos a b c, centeredGrid.vol pos [a, b, c] = signedVolume ![pos a, pos b, pos c] / 2 := fun _ _ _ _ => rfl
  have hold : ∀ c ∈ centeredGrid.cells, ¬ centeredGrid.vol centered.pos c ≤ 0 := by
    intro c hc
    rw [hcells] at hc
    simp only [List.mem_cons, List.not_mem_nil, or_false] at hc
    rcases hc with rfl | rfl | rfl <;> rw [hvol, volume_cons] <;> simp [centered, insertAt, triangle, Function.update] <;> norm_num
  have hnew : ∀ c ∈ centeredGrid.cells, ¬ centeredGrid.vol pos c ≤ 0 := by
    intro c hc
    rw [hcells] at hc
    simp only [List.mem_cons, List.not_mem_nil, or_false] at hc
    rcases hc with rfl | rfl | rfl <;> rw [hvol, volume_cons] <;> simp [pos, centered, insertAt, triangle, Function.update] <;> norm_num
  have hret : (Movement.ensureInterfaceMovement centeredGrid [![1 / 4, 0]] ⟨centered.pos, fun _ => none, [], []⟩).1 = .returned false := by
    unfold Movement.ensureInterfaceMovement
    rw [if_neg (by
      rintro ⟨c, hc, h⟩
      exact hold c hc h)]
    simp only [hm]
    have hl : ∀ cs : List (List ℕ), (∀ c ∈ cs, c ∈ centeredGrid.cells) → Movement.interfaceLoop centeredGrid cs ⟨pos, fun _ => none, [], []⟩ [![1 / 4, 0]] false =
        (.returned false, ⟨pos, fun _ => none, [], []⟩, [![1 / 4, 0]]) := by
      intro cs
      induction cs with
      | nil => exact fun _ => rfl
      | cons c cs ih =>
        intro h
        unfold Movement.interfaceLoop
        rw [if_neg (hnew c (h c (by simp)))]
        exact ih fun d hd => h d (by simp [hd])
    rw [hl _ fun _ h => h]
    rfl
  refine ⟨pos, hm, ?_, hret, ?_⟩
  · funext k
    fin_cases k <;> simp [pos, centered, insertAt, Function.update] <;> norm_num
  · have := C191_interface (g := centeredGrid) (M := centered) ⟨rfl, rfl, vol_centered⟩ conforming_centered.1 once_centered [![1 / 4, 0]]
      ⟨centered.pos, fun _ => none, [], []⟩ rfl rfl ⟨by decide, by decide⟩ (by
        intro v hv _ hi
        simp only [centeredGrid, List.mem_singleton] at hv
        subst hv
        exact absurd hI hi) pos (fun c hc hv => absurd hv (hnew c hc)) hm hret
    rw [conforming_centered.2] at this
    exact this

/-- The same movement by `moveVertices` in a grid without interface: the hypotheses of `C191_vertices` hold. -/
example : ∃ pos, Movement.moveVertices { centeredGrid with isInterface := fun _ => false } [0, 0, 0, ![1 / 4, 0]] centered.pos = some pos ∧ pos 3 = ![1 / 2, 1 / 4] ∧
    Conforming ℚ { centered with pos := pos } ∧ domain ℚ { centered with pos := pos } = domain ℚ triangle := by
  have hI : Inner centered 3 := by
    unfold Inner
    rw [cells_centered]
    decide
  have hfit : Movement.Fits [0, 1, 2, 3] (fun v : ℕ => v) [(0 : Fin 2 → ℚ), 0, 0, ![1 / 4, 0]] := ⟨by decide, by decide⟩
  obtain ⟨pos, hm, hv, -⟩ := Movement.C33_vertices { centeredGrid with isInterface := fun _ => false } [0, 0, 0, ![1 / 4, 0]] centered.pos hfit.1 hfit.2
  have h0 : pos 0 = centered.pos 0 := by rw [hv 0 (by simp [centeredGrid]) 0 rfl, add_zero]
  have h1 : pos 1 = centered.pos 1 := by rw [hv 1 (by simp [centeredGrid]) 0 rfl, add_zero]
  have h2 : pos 2 = centered.pos 2 := by rw [hv 2 (by simp [centeredGrid]) 0 rfl, add_zero]
  have h3 : pos 3 = ![1 / 2, 1 / 4] := by
    rw [hv 3 (by simp [centeredGrid]) ![1 / 4, 0] rfl]
    funext k
    fin_cases k <;> simp [centered, insertAt, Function.update] <;> norm_num
  have hvol : ∀ pos a b c, centeredGrid.vol pos [a, b, c] = signedVolume ![pos a, pos b, pos c] / 2 := fun _ _ _ _ => rfl
  have hcells : centeredGrid.cells = [[3, 1, 2], [0, 3, 2], [0, 1, 3]] := by
    have : centeredGrid.cells = centered.cells.map List.ofFn := rfl
    rw [this, cells_centered]
    rfl
  have hnew : ∀ c ∈ centeredGrid.cells, ¬ centeredGrid.vol pos c ≤ 0 := by
    intro c hc
    rw [hcells] at hc
    simp only [List.mem_cons, List.not_mem_nil, or_false] at hc
    rcases hc with rfl | rfl | rfl <;> rw [hvol, volume_cons] <;> simp [h0, h1, h2, h3, centered, insertAt, triangle, Function.update] <;> norm_num
  refine ⟨pos, hm, h3, ?_⟩
  have := C191_vertices (g := { centeredGrid with isInterface := fun _ => false }) (M := centered) ⟨rfl, rfl, vol_centered⟩ rfl conforming_centered.1 once_centered positive_centered
    [0, 0, 0, ![1 / 4, 0]] ⟨centered.pos, fun _ => none, [], []⟩ rfl hfit (by
      intro v hv _ hi
      simp only [centeredGrid, List.mem_cons, List.not_mem_nil, or_false] at hv
      rcases hv with rfl | rfl | rfl | rfl
      · rfl
      · rfl
      · rfl
      · exact absurd hI hi) pos hm (by
      intro c hc
      refine ⟨3, ?_, rfl, by simp [Movement.IsCorner, centeredGrid], by simp⟩
      have hc : c ∈ centeredGrid.cells := hc
      rw [hcells] at hc
      simp only [List.mem_cons, List.not_mem_nil, or_false] at hc
      rcases hc with rfl | rfl | rfl <;> simp) (by
      obtain ⟨b, s', pos', e1, e2, -, e4, -⟩ := Movement.C32_result { centeredGrid with isInterface := fun _ => false } rfl [0, 0, 0, ![1 / 4, 0]]
        ⟨centered.pos, fun _ => none, [], []⟩ hfit
      rw [show Movement.moveVertices _ _ (Movement.State.pos ⟨centered.pos, fun _ => none, [], []⟩) = some pos from hm] at e2
      obtain rfl : pos = pos' := by simpa using e2
      rw [e1, e4.2 fun c hc hv => absurd hv (hnew c hc)])
  rw [conforming_centered.2] at this
  exact this

/-! ## Movements of the boundary -/

/-- Three of the four quarters of the square with the corners `(±1, 0)`, `(0, ±1)`, around the vertex 0 at the origin. -/
def fan : Mesh (Fin 2 → ℚ) 2 where
  cells := [![0, 1, 2], ![0, 2, 3], ![0, 3, 4]]
  pos v := if v = 1 then ![1, 0] else if v = 2 then ![0, 1] else if v = 3 then ![-1, 0] else if v = 4 then ![0, -1] else 0

/-- The corners are turned around the origin: to `(1, 0)`, `(-1, 1)`, `(0, -1)` and `(1, 1)`. -/
def turn (v : ℕ) : Fin 2 → ℚ := if v = 2 then ![-1, 0] else if v = 3 then ![1, -1] else if v = 4 then ![1, 2] else 0

theorem conforming_fan : Conforming ℚ fan := by
  have hinj : ∀ c ∈ fan.cells, Function.Injective c := by
    intro c hc
    simp only [fan, List.mem_cons, List.not_mem_nil, or_false] at hc
    rcases hc with rfl | rfl | rfl <;> decide
  refine conforming_of_unique hinj ?_
  -- the coordinates of a point determine the weights
  have key : ∀ c ∈ fan.cells, ∀ w : ℕ → ℚ, IsWeight (verts c) w → w 0 + w 1 + w 2 + w 3 + w 4 = 1 ∧ (w 1 = 0 ∨ w 3 = 0) ∧ (w 2 = 0 ∨ w 4 = 0) ∧
      (∀ v, 4 < v → w v = 0) ∧ (∑ v ∈ verts c, w v • fan.pos v) 0 = w 1 - w 3 ∧ (∑ v ∈ verts c, w v • fan.pos v) 1 = w 2 - w 4 := by
    intro c hc w hw
    have hi := hinj c hc
    have h1 := hw.sum
    rw [sum_verts hi] at h1
    rw [sum_verts hi fun v => w v • fan.pos v]
    rw [Fin.sum_univ_three] at h1 ⊢
    simp only [fan, List.mem_cons, List.not_mem_nil, or_false] at hc
    rcases hc with rfl | rfl | rfl
    · have o3 := hw.off 3 (by decide)
      have o4 := hw.off 4 (by decide)
      refine ⟨?_, Or.inr o3, Or.inr o4, fun v hv => hw.off v ?_, ?_, ?_⟩
      · simp at h1
        linarith
      · simp [verts, Fin.exists_fin_succ]
        omega
      · simp [fan, o3]
      · simp [fan, o4]
    · have o1 := hw.off 1 (by decide)
      have o4 := hw.off 4 (by decide)
      refine ⟨?_, Or.inl o1, Or.inr o4, fun v hv => hw.off v ?_, ?_, ?_⟩
      · simp at h1
        linarith
      · simp [verts, Fin.exists_fin_succ]
        omega
      · simp [fan, o1]
      · simp [fan, o4]
    · have o1 := hw.off 1 (by decide)
      have o2 := hw.off 2 (by decide)
      refine ⟨?_, Or.inl o1, Or.inl o2, fun v hv => hw.off v ?_, ?_, ?_⟩
      · simp at h1
        linarith
      · simp [verts, Fin.exists_fin_succ]
        omega
      · simp [fan, o1]
      · simp [fan, o2]
  intro c hc c' hc' w w' hw hw' heq
  obtain ⟨a1, a2, a3, a4, a5, a6⟩ := key c hc w hw
  obtain ⟨b1, b2, b3, b4, b5, b6⟩ := key c' hc' w' hw'
  rw [heq] at a5 a6
  rw [a5] at b5
  rw [a6] at b6
  have p1 := hw.nonneg 1
  have p2 := hw.nonneg 2
  have p3 := hw.nonneg 3
  have p4 := hw.nonneg 4
  have q1 := hw'.nonneg 1
  have q2 := hw'.nonneg 2
  have q3 := hw'.nonneg 3
  have q4 := hw'.nonneg 4
  have e13 : w 1 = w' 1 ∧ w 3 = w' 3 := by
    rcases a2 with h | h <;> rcases b2 with h' | h' <;> constructor <;> linarith
  have e24 : w 2 = w' 2 ∧ w 4 = w' 4 := by
    rcases a3 with h | h <;> rcases b3 with h' | h' <;> constructor <;> linarith
  funext v
  by_cases hv : 4 < v
  · rw [a4 v hv, b4 v hv]
  · have : v = 0 ∨ v = 1 ∨ v = 2 ∨ v = 3 ∨ v = 4 := by omega
    rcases this with rfl | rfl | rfl | rfl | rfl
    · linarith [e13.1, e13.2, e24.1, e24.2]
    · exact e13.1
    · exact e24.1
    · exact e13.2
    · exact e24.2

/-- **C192** Without the condition on the boundary the claim is false: positive areas, all that `ensureVertexMovement` and `ensureInterfaceMovement` check, do not exclude
that elements overlap after a movement of boundary vertices. -/
theorem C192_boundary_false : ¬ ∀ (M : Mesh (Fin 2 → ℚ) 2) (shift : ℕ → Fin 2 → ℚ), Conforming ℚ M → Positive M → Positive (moved M shift) →
    ∀ c ∈ M.cells, ∀ c' ∈ M.cells, Set.range c ≠ Set.range c' → Disjoint (inside (moved M shift) c) (inside (moved M shift) c') := by
  intro h
  have hd := h fan turn conforming_fan (by
    intro c hc
    rw [volume_plane]
    simp only [fan, List.mem_cons, List.not_mem_nil, or_false] at hc
    rcases hc with rfl | rfl | rfl <;> simp [fan]) (by
    intro c hc
    rw [volume_plane]
    simp only [moved, fan, List.mem_cons, List.not_mem_nil, or_false] at hc
    rcases hc with rfl | rfl | rfl <;> simp [moved, fan, turn] <;> norm_num) ![0, 1, 2] (by simp [fan]) ![0, 3, 4] (by simp [fan]) (by
    intro e
    have := Set.ext_iff.1 e 1
    simp [Fin.exists_fin_succ] at this)
  rw [Set.disjoint_left] at hd
  refine hd (a := ![3 / 10, 1 / 10]) ⟨![1 / 2, 2 / 5, 1 / 10], ?_, ?_, ?_⟩ ⟨![1 / 2, 1 / 5, 3 / 10], ?_, ?_, ?_⟩
  · intro i
    fin_cases i <;> norm_num
  · rw [Fin.sum_univ_three]
    simp
    norm_num
  · rw [Fin.sum_univ_three]
    funext k
    fin_cases k <;> simp [moved, fan, turn] <;> norm_num
  · intro i
    fin_cases i <;> norm_num
  · rw [Fin.sum_univ_three]
    simp
    norm_num
  · rw [Fin.sum_univ_three]
    funext k
    fin_cases k <;> simp [moved, fan, turn] <;> norm_num

end Verif.MoveGeo
