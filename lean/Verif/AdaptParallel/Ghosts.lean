import Verif.AdaptParallel.Props
import Verif.Ranks.Props

/-!
# C227: what refinement on several processes does not keep
-/

namespace Verif.AdaptParallel

open Verif.Refine Finset

/-! ## A triangle divided into three, on two processes -/

/-- The triangle with the corners (0, 0), (1, 0), (0, 1), divided at (1/2, 0) and (1/2, 1/2). -/
def three : Mesh (Fin 2 → ℚ) 2 := insertAt (insertAt triangle {0, 1} 3 ((1 / 2 : ℚ) • triangle.pos 0 + (1 - 1 / 2 : ℚ) • triangle.pos 1)) {1, 2} 4
  ((1 / 2 : ℚ) • triangle.pos 1 + (1 - 1 / 2 : ℚ) • triangle.pos 2)

theorem three_cells : three.cells = [![3, 4, 2], ![3, 1, 4], ![0, 3, 2]] := by decide

theorem conforming_three : Conforming ℚ three := by
  have h1 := conforming_insertAt (inside_edge triangle.pos (a := 0) (b := 1) (by decide) (t := 1 / 2) (by norm_num) (by norm_num)) fresh_triangle conforming_triangle.inj (by decide) conforming_triangle
  refine conforming_insertAt (μ := fun v => if v = 1 then 1 / 2 else if v = 2 then 1 - 1 / 2 else 0) ?_ ?_ h1.inj (by decide) h1
  · have := inside_edge (insertAt triangle {0, 1} 3 ((1 / 2 : ℚ) • triangle.pos 0 + (1 - 1 / 2 : ℚ) • triangle.pos 1)).pos (a := 1) (b := 2) (by decide) (t := (1 / 2 : ℚ)) (by norm_num) (by norm_num)
    exact this
  · unfold Fresh
    decide

theorem distinct_three : Distinct three := by
  intro c hc c' hc' h
  rw [three_cells] at hc hc'
  have key : ∀ c ∈ [![3, 4, 2], ![3, 1, 4], ![0, 3, 2]], ∀ c' ∈ [![3, 4, 2], ![3, 1, 4], ![0, 3, 2]], (univ.image c : Finset ℕ) = univ.image c' → c = c' := by decide
  refine key c hc c' hc' ?_
  ext v
  have := congrArg (v ∈ ·) h
  simpa [eq_iff_iff] using this

/-- The elements at (0, 1) belong to process 0, the other one to process 1. -/
def owner (c : Fin 3 → ℕ) : ℕ := if c = ![3, 1, 4] then 1 else 0

/-- Only the element at (0, 0) is marked. -/
def corner (c : Fin 3 → ℕ) : Bool := decide (c = ![0, 3, 2])

theorem requests_serial : requestsOn ℚ len2 LongestEdge.triangleEdges (fun _ _ => false) corner (fun _ => true) three = [refineMarked ℚ three 3 2] := by
  have h : LongestEdge.refinementEdge (fun i j => len2 (three.pos ((![0, 3, 2] : Fin 3 → ℕ) i)) (three.pos ((![0, 3, 2] : Fin 3 → ℕ) j))) LongestEdge.triangleEdges = some (1, 2) := by
    decide +kernel
  unfold requestsOn
  rw [three_cells]
  show markedRequests len2 LongestEdge.triangleEdges (fun _ _ => false) three [![0, 3, 2]] [] = _
  unfold markedRequests
  rw [h]
  simp [markedRequests]

theorem requests_zero : requestsOn ℚ len2 LongestEdge.triangleEdges (fun _ _ => false) corner (presentOn owner three 0) three = [refineMarked ℚ three 3 2] := by
  rw [← requests_serial]
  unfold requestsOn
  congr 1

theorem requests_one : requestsOn ℚ len2 LongestEdge.triangleEdges (fun _ _ => false) corner (presentOn owner three 1) three = [] := by
  unfold requestsOn
  have : three.cells.filter (fun c => corner c && presentOn owner three 1 c) = [] := by decide
  rw [this]
  rfl

/-- The mesh of process 0, and of a serial run. -/
def refined : Mesh (Fin 2 → ℚ) 2 := insertAt three {3, 2} 5 ((1 / 2 : ℚ) • (three.pos 3 + three.pos 2))

theorem carried_refined : Carried three [refineMarked ℚ three 3 2] refined :=
  .cons (c := ![0, 3, 2]) (by decide) (by decide) ⟨1, rfl⟩ ⟨2, rfl⟩ (by unfold Fresh; decide) .nil

/-- **C226** for this case: the elements of the serial run are the pieces of the elements of process 0 on process 0, and those of process 1 on process 1. -/
example : {t | ∃ c' ∈ refined.cells, t = fun i => refined.pos (c' i)} =
    {t | ∃ p, ∃ c ∈ three.cells, owner c = p ∧ t ∈ Pieces ℚ (if p = 1 then three else refined) fun i => three.pos (c i)} := by
  have hs : Carried three (requestsOn ℚ len2 LongestEdge.triangleEdges (fun _ _ => false) corner (fun _ => true) three) refined := by
    rw [requests_serial]
    exact carried_refined
  refine C226_grid (fun p q => by unfold len2; ring) (fun p q => by unfold len2; positivity) LongestEdge.allEdges_triangle conforming_three distinct_three hs
    (present := fun p => if p = 1 then presentOn owner three 1 else if p = 0 then presentOn owner three 0 else fun _ => true) (Mp := fun p => if p = 1 then three else refined) (fun p => ?_) fun p c _ hc => ?_
  · split_ifs
    · rw [requests_one]
      exact .nil
    · rw [requests_zero]
      exact carried_refined
    · exact hs
  · split_ifs with h1 h0
    · exact h1 ▸ hc
    · exact h0 ▸ hc
    · rfl

/-- **C226** for a single element: process 1 leaves its element as it is, as in the serial run. -/
example : Pieces ℚ three (fun i => three.pos (![3, 1, 4] i)) = Pieces ℚ refined (fun i => three.pos (![3, 1, 4] i)) := by
  have hs : Carried three (requestsOn ℚ len2 LongestEdge.triangleEdges (fun _ _ => false) corner (fun _ => true) three) refined := by
    rw [requests_serial]
    exact carried_refined
  have h1 : Carried three (requestsOn ℚ len2 LongestEdge.triangleEdges (fun _ _ => false) corner (presentOn owner three 1) three) three := by
    rw [requests_one]
    exact .nil
  exact C226_plane (fun p q => by unfold len2; ring) (fun p q => by unfold len2; positivity) LongestEdge.allEdges_triangle conforming_three distinct_three hs h1
    (fun _ _ h => h) (owner := owner) (p := 1) (by decide) (by decide)

/-- **C227** After `adapt()` a ghost is not a copy of the elements on its owner: the element with the corners (1/2, 0), (1/2, 1/2), (0, 1) belongs to process 0, which has halved it because of its
neighbour; on process 1 it is a ghost and was not changed. -/
theorem C227_ghost_false : ¬ ∀ (M M0 M1 : Mesh (Fin 2 → ℚ) 2) (owner : (Fin 3 → ℕ) → ℕ) (mark : (Fin 3 → ℕ) → Bool), Conforming ℚ M → Distinct M →
    Carried M (requestsOn ℚ len2 LongestEdge.triangleEdges (fun _ _ => false) mark (presentOn owner M 0) M) M0 →
    Carried M (requestsOn ℚ len2 LongestEdge.triangleEdges (fun _ _ => false) mark (presentOn owner M 1) M) M1 →
    ∀ c ∈ M.cells, owner c = 0 → presentOn owner M 1 c = true → Pieces ℚ M1 (fun i => M.pos (c i)) = Pieces ℚ M0 fun i => M.pos (c i) := by
  intro h
  have := h three refined three owner corner conforming_three distinct_three (by rw [requests_zero]; exact carried_refined) (by rw [requests_one]; exact .nil) ![3, 4, 2] (by decide) (by decide) (by decide)
  have hm : (fun i => three.pos (![3, 4, 2] i)) ∈ Pieces ℚ three (fun i => three.pos (![3, 4, 2] i)) := ⟨⟨![3, 4, 2], by decide, rfl⟩, subset_rfl⟩
  rw [this] at hm
  obtain ⟨⟨c', hc', he⟩, -⟩ := hm
  revert he
  have key : ∀ c' ∈ refined.cells, ¬ ((fun i => three.pos ((![3, 4, 2] : Fin 3 → ℕ) i)) = fun i => refined.pos (c' i)) := by decide +kernel
  exact key c' hc'

/-- **C227** At the end of `adapt()` every process distributes the elements of its own triangulation anew. The interior elements of the processes then do not make up the grid: process 0 has three of five
elements, process 1 has one of three. -/
theorem C227_owners_false : ¬ ∀ (M Ms M0 M1 : Mesh (Fin 2 → ℚ) 2) (owner : (Fin 3 → ℕ) → ℕ) (mark : (Fin 3 → ℕ) → Bool), Conforming ℚ M → Distinct M →
    Carried M (requestsOn ℚ len2 LongestEdge.triangleEdges (fun _ _ => false) mark (fun _ => true) M) Ms →
    Carried M (requestsOn ℚ len2 LongestEdge.triangleEdges (fun _ _ => false) mark (presentOn owner M 0) M) M0 →
    Carried M (requestsOn ℚ len2 LongestEdge.triangleEdges (fun _ _ => false) mark (presentOn owner M 1) M) M1 →
    ∀ inf0 inf1 rank0 rank1, Ranks.IsRank 2 (Ranks.divisor 2 M0.cells.length inf0) M0.cells.length rank0 → Ranks.IsRank 2 (Ranks.divisor 2 M1.cells.length inf1) M1.cells.length rank1 →
    Ranks.load M0.cells.length rank0 0 + Ranks.load M1.cells.length rank1 1 = Ms.cells.length := by
  intro h
  have := h three refined refined three owner corner conforming_three distinct_three (by rw [requests_serial]; exact carried_refined) (by rw [requests_zero]; exact carried_refined)
    (by rw [requests_one]; exact .nil) 0 0 (fun i => i * 2 / 5) (fun i => i * 2 / 3)
  refine absurd (this ?_ ?_) (by decide)
  · intro me i hi
    rw [Ranks.distribute_rank (by decide)]
    have : ∀ i < 5, ((List.range 5).map (Ranks.getRank 2 5))[i]? = some (i * 2 / 5) := by decide
    exact this i hi
  · intro me i hi
    rw [Ranks.distribute_rank (by decide)]
    have : ∀ i < 3, ((List.range 3).map (Ranks.getRank 2 3))[i]? = some (i * 2 / 3) := by decide
    exact this i hi

/-! ## Ids of new vertices -/

/-- The triangle divided into four: also the edge from (1, 0) to (1/2, 1/2) is halved. -/
def four : Mesh (Fin 2 → ℚ) 2 := insertAt three {1, 4} 5 ((1 / 2 : ℚ) • three.pos 1 + (1 - 1 / 2 : ℚ) • three.pos 4)

theorem four_cells : four.cells = [![3, 4, 2], ![3, 5, 4], ![3, 1, 5], ![0, 3, 2]] := by decide

theorem conforming_four : Conforming ℚ four :=
  conforming_insertAt (inside_edge three.pos (a := 1) (b := 4) (by decide) (t := 1 / 2) (by norm_num) (by norm_num)) (by unfold Fresh; decide) conforming_three.inj (by decide) conforming_three

theorem distinct_four : Distinct four := by
  intro c hc c' hc' h
  rw [four_cells] at hc hc'
  have key : ∀ c ∈ [![3, 4, 2], ![3, 5, 4], ![3, 1, 5], ![0, 3, 2]], ∀ c' ∈ [![3, 4, 2], ![3, 5, 4], ![3, 1, 5], ![0, 3, 2]], (univ.image c : Finset ℕ) = univ.image c' → c = c' := by decide
  refine key c hc c' hc' ?_
  ext v
  have := congrArg (v ∈ ·) h
  simpa [eq_iff_iff] using this

/-- The elements at (0, 1) belong to process 0, the two others to process 1. -/
def owner4 (c : Fin 3 → ℕ) : ℕ := if c = ![3, 5, 4] ∨ c = ![3, 1, 5] then 1 else 0

/-- The first and the last element of the strip are marked. -/
def ends4 (c : Fin 3 → ℕ) : Bool := decide (c = ![0, 3, 2] ∨ c = ![3, 1, 5])

theorem requests4_zero : requestsOn ℚ len2 LongestEdge.triangleEdges (fun _ _ => false) ends4 (presentOn owner4 four 0) four = [refineMarked ℚ four 3 2] := by
  have h : LongestEdge.refinementEdge (fun i j => len2 (four.pos ((![0, 3, 2] : Fin 3 → ℕ) i)) (four.pos ((![0, 3, 2] : Fin 3 → ℕ) j))) LongestEdge.triangleEdges = some (1, 2) := by
    decide +kernel
  unfold requestsOn
  have hf : four.cells.filter (fun c => ends4 c && presentOn owner4 four 0 c) = [![0, 3, 2]] := by decide
  rw [hf]
  unfold markedRequests
  rw [h]
  simp [markedRequests]

theorem requests4_one : requestsOn ℚ len2 LongestEdge.triangleEdges (fun _ _ => false) ends4 (presentOn owner4 four 1) four = [refineMarked ℚ four 3 1] := by
  have h : LongestEdge.refinementEdge (fun i j => len2 (four.pos ((![3, 1, 5] : Fin 3 → ℕ) i)) (four.pos ((![3, 1, 5] : Fin 3 → ℕ) j))) LongestEdge.triangleEdges = some (0, 1) := by
    decide +kernel
  unfold requestsOn
  have hf : four.cells.filter (fun c => ends4 c && presentOn owner4 four 1 c) = [![3, 1, 5]] := by decide
  rw [hf]
  unfold markedRequests
  rw [h]
  simp [markedRequests]

theorem numbered {M : Mesh (Fin 2 → ℚ) 2} {n : ℕ} (h1 : ∀ c ∈ M.cells, ∀ i, c i < n) (h2 : ∀ v < n, ∃ c ∈ M.cells, ∃ i, c i = v) : vertices M = {v | v < n} := by
  ext v
  exact ⟨fun ⟨c, hc, i, h⟩ => h ▸ h1 c hc i, h2 v⟩

/-- **C227** The ids of new vertices are given on every process without regard to the others (the ids in use are 0, 1, ..., and a new vertex gets the next one, C03). Then different vertices on two processes
have the same id. -/
theorem C227_ids_false : ¬ ∀ (M M0 M1 : Mesh (Fin 2 → ℚ) 2) (owner : (Fin 3 → ℕ) → ℕ) (mark : (Fin 3 → ℕ) → Bool) (n n0 n1 : ℕ), Conforming ℚ M → Distinct M →
    Carried M (requestsOn ℚ len2 LongestEdge.triangleEdges (fun _ _ => false) mark (presentOn owner M 0) M) M0 →
    Carried M (requestsOn ℚ len2 LongestEdge.triangleEdges (fun _ _ => false) mark (presentOn owner M 1) M) M1 →
    vertices M = {v | v < n} → vertices M0 = {v | v < n0} → vertices M1 = {v | v < n1} → ∀ v, v < n0 → v < n1 → M0.pos v = M1.pos v := by
  intro h
  have := h four (insertAt four {3, 2} 6 ((1 / 2 : ℚ) • (four.pos 3 + four.pos 2))) (insertAt four {3, 1} 6 ((1 / 2 : ℚ) • (four.pos 3 + four.pos 1))) owner4 ends4 6 7 7 conforming_four distinct_four
    (by
      rw [requests4_zero]
      exact .cons (c := ![0, 3, 2]) (by decide) (by decide) ⟨1, rfl⟩ ⟨2, rfl⟩ (by unfold Fresh; decide) .nil)
    (by
      rw [requests4_one]
      exact .cons (c := ![3, 1, 5]) (by decide) (by decide) ⟨0, rfl⟩ ⟨1, rfl⟩ (by unfold Fresh; decide) .nil)
    (numbered (by decide) (by decide)) (numbered (by decide) (by decide)) (numbered (by decide) (by decide)) 6 (by decide) (by decide)
  revert this
  decide +kernel

/-! ## Three dimensions -/

/-- Squared length in space. -/
def len3 (p q : Fin 3 → ℚ) : ℚ := (p 0 - q 0) ^ 2 + (p 1 - q 1) ^ 2 + (p 2 - q 2) ^ 2

def tetrahedron : Mesh (Fin 3 → ℚ) 3 where
  cells := [![1, 2, 0, 3]]
  pos v := if v = 1 then ![1, 0, 0] else if v = 2 then ![0, 1, 0] else if v = 3 then ![0, 0, 1] else 0

theorem conforming_tetrahedron : Conforming ℚ tetrahedron :=
  conforming_single (pos := tetrahedron.pos) (by decide +kernel)

/-- The tetrahedron divided by two points on the edge opposite to its first one: three tetrahedra around the edge from (1, 0, 0) to (0, 1, 0). -/
def around : Mesh (Fin 3 → ℚ) 3 := insertAt (insertAt tetrahedron {0, 3} 4 ((1 / 2 : ℚ) • tetrahedron.pos 0 + (1 - 1 / 2 : ℚ) • tetrahedron.pos 3)) {4, 3} 5 ![0, 0, 3 / 4]

theorem around_cells : around.cells = [![1, 2, 5, 3], ![1, 2, 4, 5], ![1, 2, 0, 4]] := by decide

theorem conforming_around : Conforming ℚ around := by
  have h1 := conforming_insertAt (inside_edge tetrahedron.pos (a := 0) (b := 3) (by decide) (t := 1 / 2) (by norm_num) (by norm_num)) (m := 4) (by unfold Fresh; decide) conforming_tetrahedron.inj (by decide)
    conforming_tetrahedron
  have h2 := inside_edge (insertAt tetrahedron {0, 3} 4 ((1 / 2 : ℚ) • tetrahedron.pos 0 + (1 - 1 / 2 : ℚ) • tetrahedron.pos 3)).pos (a := 4) (b := 3) (by decide) (t := (1 / 2 : ℚ)) (by norm_num) (by norm_num)
  have h3 := conforming_insertAt h2 (m := 5) (by unfold Fresh; decide) h1.inj (by decide) h1
  have e : ((1 / 2 : ℚ) • (insertAt tetrahedron {0, 3} 4 ((1 / 2 : ℚ) • tetrahedron.pos 0 + (1 - 1 / 2 : ℚ) • tetrahedron.pos 3)).pos 4 +
      (1 - 1 / 2 : ℚ) • (insertAt tetrahedron {0, 3} 4 ((1 / 2 : ℚ) • tetrahedron.pos 0 + (1 - 1 / 2 : ℚ) • tetrahedron.pos 3)).pos 3) = ![0, 0, 3 / 4] := by
    decide +kernel
  rw [e] at h3
  exact h3

theorem distinct_around : Distinct around := by
  intro c hc c' hc' h
  rw [around_cells] at hc hc'
  have key : ∀ c ∈ [![1, 2, 5, 3], ![1, 2, 4, 5], ![1, 2, 0, 4]], ∀ c' ∈ [![1, 2, 5, 3], ![1, 2, 4, 5], ![1, 2, 0, 4]], (univ.image c : Finset ℕ) = univ.image c' → c = c' := by decide
  refine key c hc c' hc' ?_
  ext v
  have := congrArg (v ∈ ·) h
  simpa [eq_iff_iff] using this

/-- The element at (0, 0, 1) belongs to process 1, the two others to process 0. -/
def owner3 (c : Fin 4 → ℕ) : ℕ := if c = ![1, 2, 5, 3] then 1 else 0

/-- The element at the origin is marked. -/
def origin (c : Fin 4 → ℕ) : Bool := decide (c = ![1, 2, 0, 4])

/-- **C227** In 3D a process does not refine its own elements as in a serial run: the marked element has its longest edge in common with the element of process 1, but no facet, so it is not present on
process 1. -/
theorem C227_space_false : ¬ ∀ (M Ms M1 : Mesh (Fin 3 → ℚ) 3) (owner : (Fin 4 → ℕ) → ℕ) (mark : (Fin 4 → ℕ) → Bool), Conforming ℚ M → Distinct M →
    Carried M (requestsOn ℚ len3 LongestEdge.tetrahedronEdges (fun _ _ => false) mark (fun _ => true) M) Ms →
    Carried M (requestsOn ℚ len3 LongestEdge.tetrahedronEdges (fun _ _ => false) mark (presentOn owner M 1) M) M1 →
    ∀ c ∈ M.cells, owner c = 1 → Pieces ℚ M1 (fun i => M.pos (c i)) = Pieces ℚ Ms fun i => M.pos (c i) := by
  intro h
  have hs : requestsOn ℚ len3 LongestEdge.tetrahedronEdges (fun _ _ => false) origin (fun _ => true) around = [refineMarked ℚ around 1 2] := by
    have h : LongestEdge.refinementEdge (fun i j => len3 (around.pos ((![1, 2, 0, 4] : Fin 4 → ℕ) i)) (around.pos ((![1, 2, 0, 4] : Fin 4 → ℕ) j))) LongestEdge.tetrahedronEdges = some (0, 1) := by
      decide +kernel
    unfold requestsOn
    have hf : around.cells.filter (fun c => origin c && true) = [![1, 2, 0, 4]] := by decide
    rw [hf]
    unfold markedRequests
    rw [h]
    simp [markedRequests]
  have h1 : requestsOn ℚ len3 LongestEdge.tetrahedronEdges (fun _ _ => false) origin (presentOn owner3 around 1) around = [] := by
    unfold requestsOn
    have : around.cells.filter (fun c => origin c && presentOn owner3 around 1 c) = [] := by decide
    rw [this]
    rfl
  have hc : Carried around [refineMarked ℚ around 1 2] (insertAt around {1, 2} 6 ((1 / 2 : ℚ) • (around.pos 1 + around.pos 2))) :=
    .cons (c := ![1, 2, 0, 4]) (by decide) (by decide) ⟨0, rfl⟩ ⟨1, rfl⟩ (by unfold Fresh; decide) .nil
  have := h around _ around owner3 origin conforming_around distinct_around (by rw [hs]; exact hc) (by rw [h1]; exact .nil) ![1, 2, 5, 3] (by decide) (by decide)
  have hm : (fun i => around.pos (![1, 2, 5, 3] i)) ∈ Pieces ℚ around (fun i => around.pos (![1, 2, 5, 3] i)) := ⟨⟨![1, 2, 5, 3], by decide, rfl⟩, subset_rfl⟩
  rw [this] at hm
  obtain ⟨⟨c', hc', he⟩, -⟩ := hm
  revert he
  have key : ∀ c' ∈ (insertAt around {1, 2} 6 ((1 / 2 : ℚ) • (around.pos 1 + around.pos 2))).cells,
      ¬ ((fun i => around.pos ((![1, 2, 5, 3] : Fin 4 → ℕ) i)) = fun i => (insertAt around {1, 2} 6 ((1 / 2 : ℚ) • (around.pos 1 + around.pos 2))).pos (c' i)) := by decide +kernel
  exact key c' hc'

end Verif.AdaptParallel
