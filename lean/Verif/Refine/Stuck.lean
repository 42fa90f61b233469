import Verif.Indicator.Props
import Verif.LongestEdge.Model

/-!
# Marks in 2D that `adapt()` does not act on (mmesh.hh:736-751, 823-910)
-/

namespace Verif.Refine.Stuck

open Indicator

/-! ## Model -/

/-- A 2D grid: triangles and interface elements, given by their vertices, and the positions of the vertices. (Models: mmesh.hh:1811 `hostgrid_`, 1817 `interfaceSegments_`.) -/
structure Grid where
  triangles : List (ℕ × ℕ × ℕ)
  segments : List (ℕ × ℕ)
  pos : ℕ → Point

/-- mmesh.hh:741: the mark of an element with the given distance to the interface. -/
noncomputable def mark (ind : Ind) (dist : ℕ × ℕ × ℕ → ℝ) (g : Grid) (c : ℕ × ℕ × ℕ) : Int := indicateTriangle ind (dist c) (g.pos c.1) (g.pos c.2.1) (g.pos c.2.2)

/-- mmesh.hh:746: the mark of an interface element. -/
noncomputable def imark (ind : Ind) (g : Grid) (s : ℕ × ℕ) : Int := indicateSegment ind (g.pos s.1) (g.pos s.2)

/-- mmesh.hh:736-751: the value returned by `markElements`. -/
def Marked (ind : Ind) (dist : ℕ × ℕ × ℕ → ℝ) (g : Grid) : Prop := (∃ c ∈ g.triangles, mark ind dist g c ≠ 0) ∨ ∃ s ∈ g.segments, imark ind g s ≠ 0

/-- Number of interface elements at a vertex. (Models: remeshing/longestedgerefinement.hh:155-163, `incidentInterfaceVertices`.) -/
def Grid.count (g : Grid) (v : ℕ) : ℕ := g.segments.countP fun s => s.1 == v || s.2 == v

/-- `adapt()` has something to do after `markElements()` (mmesh.hh:826-910): an element is marked for refinement (an edge is inserted into `insert_`), an element is marked for coarsening, or an
interface element is marked for coarsening and `coarsening` returns a vertex (900-903). Simplified: for elements marked for coarsening it is not stated whether a vertex is found. -/
def HasWork (ind : Ind) (dist : ℕ × ℕ × ℕ → ℝ) (g : Grid) : Prop :=
  (∃ c ∈ g.triangles, mark ind dist g c = 1 ∨ mark ind dist g c = -1) ∨
    ∃ s ∈ g.segments, imark ind g s = 1 ∨ (imark ind g s = -1 ∧ LongestEdge.icoarsening g.count [s.1, s.2] ≠ none)

/-! ## Proofs -/

/-- Two triangles with edges of lengths 300, 250 and 250 on both sides of an interface element. -/
noncomputable def kite : Grid where
  triangles := [(0, 1, 2), (0, 1, 3)]
  segments := [(0, 1)]
  pos := fun v => if v = 0 then (0, 0) else if v = 1 then (300, 0) else if v = 2 then (150, 200) else (150, -200)

/-- The indicator that the constructor of the grid sets up (mmesh.hh:300), and `update()` (the largest distance to the interface is 200, remeshing/distance.hh). -/
noncomputable def kiteInd (x : ℝ) : Ind := update (init (construct 0 1 1 x) [300] [300, 250, 250, 250, 250] false) 200

theorem kiteInd_eq (x : ℝ) : kiteInd x = ⟨75, 600, 1, 6 / 5, 200⟩ := by
  unfold kiteInd update init construct Indicator.range smallK bigK edgeRatio
  norm_num [List.foldl]

theorem edge_300 : edgeLength (0, 0) (300, 0) = 300 := by
  unfold edgeLength
  rw [show (((0 : ℝ), (0 : ℝ)).1 - ((300 : ℝ), (0 : ℝ)).1) ^ 2 + (((0 : ℝ), (0 : ℝ)).2 - ((300 : ℝ), (0 : ℝ)).2) ^ 2 = 300 ^ 2 by norm_num]
  exact Real.sqrt_sq (by norm_num)

theorem edge_250 {p q : Point} (h : (p.1 - q.1) ^ 2 + (p.2 - q.2) ^ 2 = 250 ^ 2) : edgeLength p q = 250 := by
  unfold edgeLength
  rw [h]
  exact Real.sqrt_sq (by norm_num)

theorem lengths : Lengths [300, 250, 250] := ⟨by simp, by
  intro e he
  simp only [List.mem_cons, List.not_mem_nil, or_false] at he
  rcases he with rfl | rfl | rfl <;> norm_num⟩

theorem triangle_zero {y : ℝ} (hy : y = 200 ∨ y = -200) (x d : ℝ) (hd : 0 ≤ d) : indicateTriangle (kiteInd x) d (0, 0) (300, 0) (150, y) = 0 := by
  have hy2 : y ^ 2 = 40000 := by rcases hy with rfl | rfl <;> norm_num
  have h1 : edgeLength (0, 0) (150, y) = 250 := edge_250 (by simp only; linarith)
  have h2 : edgeLength (300, 0) (150, y) = 250 := edge_250 (by simp only; linarith)
  have h3 : triangleVolume (0, 0) (300, 0) (150, y) = 30000 := by
    unfold triangleVolume
    rcases hy with rfl | rfl
    · rw [abs_of_pos (by norm_num)]; norm_num
    · rw [abs_of_neg (by norm_num)]; norm_num
  have h4 : edgeLength (circumcenter (0, 0) (300, 0) (150, y)) (0, 0) = 156.25 := by
    have : circumcenter (0, 0) (300, 0) (150, y) = (150, if y = 200 then 43.75 else -43.75) := by
      unfold circumcenter
      rcases hy with rfl | rfl <;> norm_num
    rw [this]
    unfold edgeLength
    rw [show (((150 : ℝ), if y = 200 then (43.75 : ℝ) else -43.75).1 - ((0 : ℝ), (0 : ℝ)).1) ^ 2 +
      (((150 : ℝ), if y = 200 then (43.75 : ℝ) else -43.75).2 - ((0 : ℝ), (0 : ℝ)).2) ^ 2 = 156.25 ^ 2 by split_ifs <;> norm_num]
    exact Real.sqrt_sq (by norm_num)
  unfold indicateTriangle
  rw [edge_300, h1, h2, h3, h4, indicate_eq 2 _ d _ _ lengths, kiteInd_eq]
  have hl0 : 0 ≤ min 200 d / 200 := by positivity
  have hl1 : min 200 d / 200 ≤ 1 := by
    rw [div_le_one (by norm_num)]
    exact min_le_left _ _
  have hlo : (limits ⟨75, 600, 1, 6 / 5, 200⟩ d).1 ≤ 90 := by
    unfold limits
    simp only
    nlinarith
  have hhi : 600 ≤ (limits ⟨75, 600, 1, 6 / 5, 200⟩ d).2 := by
    unfold limits
    simp only
    nlinarith
  rw [if_neg, if_neg]
  · rintro ⟨e, he, hlt⟩
    simp only [List.mem_cons, List.not_mem_nil, or_false] at he
    rcases he with rfl | rfl | rfl <;> linarith
  · rintro ⟨⟨e, he, hlt⟩ | ⟨e, he, f, hf, hlt⟩ | hr, -⟩
    · simp only [List.mem_cons, List.not_mem_nil, or_false] at he
      rcases he with rfl | rfl | rfl <;> linarith
    · simp only [List.mem_cons, List.not_mem_nil, or_false] at he hf
      rcases he with rfl | rfl | rfl <;> rcases hf with rfl | rfl | rfl <;> norm_num at hlt
    · norm_num at hr

/-- **C222** Refuted: `markElements()` returns true, but `adapt()` finds nothing to insert and nothing to remove. Repeating them as long as `markElements()` returns true does not end: the grid
consists of two triangles, and the interface of one element of length 300. The limits are those that the grid has computed itself, for any distances of the triangles to the interface. -/
theorem C222_progress_false : ∀ x dist, (∀ c, 0 ≤ dist c) → Marked (kiteInd x) dist kite ∧ ¬ HasWork (kiteInd x) dist kite := by
  intro x dist hd
  have hs : imark (kiteInd x) kite (0, 1) = -1 := by
    have h := (C44_segment (kiteInd x) (p := (0, 0)) (q := (300, 0)) (by simp)
      (by rw [show Indicator.dist (0, 0) (300, 0) = 300 from edge_300]; norm_num) (by rw [kiteInd_eq]; norm_num)).1.2
      (Or.inr (by rw [show Indicator.dist (0, 0) (300, 0) = 300 from edge_300]; norm_num))
    simpa [imark, kite] using h
  have h1 : mark (kiteInd x) dist kite (0, 1, 2) = 0 := by
    have := triangle_zero (Or.inl rfl) x (dist (0, 1, 2)) (hd _)
    simpa [mark, kite] using this
  have h2 : mark (kiteInd x) dist kite (0, 1, 3) = 0 := by
    have := triangle_zero (Or.inr rfl) x (dist (0, 1, 3)) (hd _)
    simpa [mark, kite] using this
  refine ⟨Or.inr ⟨(0, 1), by simp [kite], by rw [hs]; decide⟩, ?_⟩
  rintro (⟨c, hc, h⟩ | ⟨s, hs', h⟩)
  · simp only [kite, List.mem_cons, List.not_mem_nil, or_false] at hc
    rcases hc with rfl | rfl
    · change mark (kiteInd x) dist kite _ = 1 ∨ mark (kiteInd x) dist kite _ = -1 at h
      rw [h1] at h
      simp at h
    · change mark (kiteInd x) dist kite _ = 1 ∨ mark (kiteInd x) dist kite _ = -1 at h
      rw [h2] at h
      simp at h
  · obtain rfl : s = (0, 1) := by simpa [kite] using hs'
    rw [hs] at h
    rcases h with h | ⟨-, h⟩
    · simp at h
    · refine h ?_
      have : kite.count = fun v => [((0 : ℕ), (1 : ℕ))].countP fun s => s.1 == v || s.2 == v := rfl
      rw [this]
      decide

/-- **C222** What holds: in 2D, elements are only marked with reason, and `adapt()` has something to do if an element, or an interface element with a removable vertex, or an interface element
that is to be refined, is marked. -/
theorem C222_work_partial (ind : Ind) (dist : ℕ × ℕ × ℕ → ℝ) (g : Grid) (h : Marked ind dist g)
    (hr : ∀ s ∈ g.segments, imark ind g s = -1 → g.count s.1 = 2 ∨ g.count s.2 = 2) : HasWork ind dist g := by
  rcases h with ⟨c, hc, h⟩ | ⟨s, hs, h⟩
  · refine Or.inl ⟨c, hc, ?_⟩
    unfold mark indicateTriangle at h ⊢
    rcases indicate_cases 2 ind (dist c) [edgeLength (g.pos c.1) (g.pos c.2.1), edgeLength (g.pos c.1) (g.pos c.2.2), edgeLength (g.pos c.2.1) (g.pos c.2.2)]
      (triangleVolume (g.pos c.1) (g.pos c.2.1) (g.pos c.2.2)) (edgeLength (circumcenter (g.pos c.1) (g.pos c.2.1) (g.pos c.2.2)) (g.pos c.1)) with h' | h' | h'
    · exact Or.inr h'
    · exact Or.inl h'
    · exact absurd h' h
  · refine Or.inr ⟨s, hs, ?_⟩
    have hc : imark ind g s = -1 ∨ imark ind g s = 1 ∨ imark ind g s = 0 := indicate_cases _ _ _ _ _ _
    rcases hc with h' | h' | h'
    · refine Or.inr ⟨h', ?_⟩
      unfold LongestEdge.icoarsening LongestEdge.isRemoveable
      rw [ne_eq, List.find?_eq_none]
      intro hn
      rcases hr s hs h' with h2 | h2
      · exact hn s.1 (by simp) (by simp [h2])
      · exact hn s.2 (by simp) (by simp [h2])
    · exact Or.inl h'
    · exact absurd h' h

/-- A vertex with two interface elements exists in a closed interface. -/
example : (⟨[], [(0, 1), (1, 2), (2, 0)], fun _ => (0, 0)⟩ : Grid).count 1 = 2 := rfl

end Verif.Refine.Stuck
