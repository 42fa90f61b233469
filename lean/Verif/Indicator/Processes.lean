import Verif.Indicator.Props
import Verif.Distance.Props
import Verif.AdaptParallel.Props

/-!
# The default indicator on several processes (model)

Each process has its own indicator. It is prepared from the edges that are present on the process (`init` in the constructor of the grid, after `loadBalance`, mmesh.hh:299-300) and it uses the distances
computed from the interior interface elements of the process (`update` in `markElements`, mmesh.hh:736-738).
-/

namespace Verif.Indicator

open Verif.Refine Verif.AdaptParallel

/-- Grids in the plane. (Models: the triangulation that every process has, mmesh.hh:1806.) -/
abbrev Plane := Mesh (Fin 2 → ℝ) 2

/-- The position of a vertex as in the models of the indicator and of the distance. (Models: no code of its own.) -/
def point (M : Plane) (v : ℕ) : Point := (M.pos v 0, M.pos v 1)

/-- The elements on the process `p` (partitionhelper.hh:201-237), see `presentOn`. -/
def localCells (owner : (Fin 3 → ℕ) → ℕ) (M : Plane) (p : ℕ) : List (Fin 3 → ℕ) := M.cells.filter (presentOn owner M p)

/-- The lengths of the edges on the process `p` (remeshing/ratioindicator.hh:77-81). An edge between two elements is listed twice here, which has no effect on the smallest and the largest length. -/
noncomputable def localEdges (owner : (Fin 3 → ℕ) → ℕ) (M : Plane) (p : ℕ) : List ℝ :=
  (localCells owner M p).flatMap fun c => edges (point M (c 0)) (point M (c 1)) (point M (c 2))

/-- The vertices on the process `p` in the order of the index set (indexsets.hh:180-193). -/
def localVertices (owner : (Fin 3 → ℕ) → ℕ) (M : Plane) (p : ℕ) : List ℕ := ((localCells owner M p).flatMap fun c => [c 0, c 1, c 2]).dedup

/-- Vertices all of whose elements are interior are interior (partitionhelper.hh:280-299). -/
def interiorVertex (owner : (Fin 3 → ℕ) → ℕ) (M : Plane) (p v : ℕ) : Bool := M.cells.all fun c => decide (owner c = p) || !decide (v ∈ [c 0, c 1, c 2])

/-- The distances on the process `p` (remeshing/distance.hh:42-59); `segs` are its interior interface elements. -/
noncomputable def distances (owner : (Fin 3 → ℕ) → ℕ) (M : Plane) (p : ℕ) (segs : List (Point × Point)) : List ℝ :=
  Distance.update ((localVertices owner M p).map fun v => (interiorVertex owner M p v, point M v)) segs

/-- The indicator after the construction of the grid (mmesh.hh:299-300, remeshing/ratioindicator.hh:62-91); `isegs` are the interface elements on the process. -/
noncomputable def initial (ind : Ind) (owner : (Fin 3 → ℕ) → ℕ) (M : Plane) (p : ℕ) (isegs : List (Point × Point)) : Ind :=
  init ind (isegs.map fun s => edgeLength s.1 s.2) (localEdges owner M p) isegs.isEmpty

/-- The decision of `markElements` about an element (mmesh.hh:736-743) with the indicator `ind` of the process. -/
noncomputable def decision (ind : Ind) (owner : (Fin 3 → ℕ) → ℕ) (M : Plane) (p : ℕ) (segs : List (Point × Point)) (c : Fin 3 → ℕ) : Int :=
  let ds := distances owner M p segs
  let idx := fun v => (localVertices owner M p).idxOf v
  indicateTriangle (update ind (Distance.maximum ds)) (Distance.elementDistance ds (idx (c 0)) (idx (c 1)) (idx (c 2))) (point M (c 0)) (point M (c 1)) (point M (c 2))

/-! ## C231: the same settings on all processes -/

theorem limits_one {ind : Ind} (hf : ind.factor = 1) (d : ℝ) : limits ind d = (ind.minH, ind.maxH) := by
  unfold limits
  rw [hf]
  refine Prod.ext ?_ ?_ <;> simp only <;> ring

/-- **C231** With `factor` 1 and the same permitted edge lengths `minH` and `maxH` on all processes, the decision about an element does not depend on the process (nor on the number of processes), however
the grid is distributed. The quotient by the largest distance is computed on every process, so there has to be a vertex off the interface. -/
theorem C231_agree {ind ind' : Ind} (h1 : ind.minH = ind'.minH) (h2 : ind.maxH = ind'.maxH) (hf : ind.factor = 1) (hf' : ind'.factor = 1) (M : Plane) (owner owner' : (Fin 3 → ℕ) → ℕ) (p p' : ℕ)
    (segs segs' : List (Point × Point)) (_hm : 0 < ind.distProportion * Distance.maximum (distances owner M p segs))
    (_hm' : 0 < ind'.distProportion * Distance.maximum (distances owner' M p' segs')) (c : Fin 3 → ℕ) :
    decision ind owner M p segs c = decision ind' owner' M p' segs' c := by
  unfold decision indicateTriangle indicate
  simp only
  rw [limits_one (ind := update ind _) hf, limits_one (ind := update ind' _) hf']
  unfold update
  simp only [h1, h2]

/-- **C231** The largest distance is positive on every process with a vertex at its border (a vertex that is not interior). -/
theorem C231_border (owner : (Fin 3 → ℕ) → ℕ) (M : Plane) (p : ℕ) (segs : List (Point × Point)) {v : ℕ} (hv : v ∈ localVertices owner M p) (hi : interiorVertex owner M p v = false) :
    Distance.maximum (distances owner M p segs) = 10 ^ 100 := by
  set vs := (localVertices owner M p).map fun v => (interiorVertex owner M p v, point M v) with hvs
  have hle : ∀ d ∈ Distance.update vs segs, 0 ≤ d ∧ d ≤ 10 ^ 100 := by
    intro d hd
    obtain ⟨i, hi, rfl⟩ := List.getElem_of_mem hd
    have hl : (Distance.update vs segs).length = vs.length := by
      unfold Distance.update
      have : ∀ (segs : List (Point × Point)) (ds : List ℝ), ds.length = vs.length → (segs.foldl (Distance.handleFacet vs) ds).length = vs.length := by
        intro segs
        induction segs with
        | nil => intro ds h; exact h
        | cons s segs ih => intro ds h; exact ih _ (by rw [Distance.handleFacet_length vs ds s h])
      exact this segs _ (by simp)
    rw [hl] at hi
    have hget : vs[i]? = some vs[i] := List.getElem?_eq_getElem hi
    rcases hx : vs[i] with ⟨b, q⟩
    rw [hx] at hget
    cases b with
    | false =>
      have := Distance.C118_ghost_false vs segs hget
      rw [List.getElem?_eq_getElem (by rw [hl]; exact hi), Option.some.injEq] at this
      rw [this]
      exact ⟨by positivity, le_rfl⟩
    | true =>
      have hd0 : (List.replicate vs.length Distance.high)[i]? = some Distance.high := by simp [hi]
      obtain ⟨m, m1, m2, m3, m4⟩ := Distance.fold_get hget segs _ _ hd0
      have m1' : (Distance.update vs segs)[i]? = some m := m1
      rw [List.getElem?_eq_getElem (by rw [hl]; exact hi), Option.some.injEq] at m1'
      rw [m1']
      obtain ⟨m', n1, n2, -⟩ := Distance.C43_minimum vs segs hget
      rw [show (Distance.update vs segs)[i]? = some m from m1, Option.some.injEq] at n1
      exact ⟨n1 ▸ n2, m2⟩
  obtain ⟨g1, g2⟩ := Distance.C43_maximum (Distance.update vs segs) fun d hd => (hle d hd).1
  obtain ⟨i, hi', hiv⟩ := List.getElem_of_mem hv
  have hget : vs[i]? = some (false, point M v) := by
    rw [hvs, List.getElem?_map, List.getElem?_eq_getElem hi', Option.map_some, hiv, hi]
  have hmem := List.mem_of_getElem? (Distance.C118_ghost_false vs segs hget)
  refine le_antisymm ?_ (g1 _ hmem)
  exact (hle _ (g2 (List.ne_nil_of_mem hmem))).2

theorem decision_eq_one {ind : Ind} {owner : (Fin 3 → ℕ) → ℕ} {M : Plane} {p : ℕ} {segs : List (Point × Point)} {ind' : Ind} {owner' : (Fin 3 → ℕ) → ℕ} {p' : ℕ} {segs' : List (Point × Point)}
    (h : ∀ c, decision ind owner M p segs c = decision ind' owner' M p' segs' c) :
    (fun c => decide (decision ind owner M p segs c = 1)) = fun c => decide (decision ind' owner' M p' segs' c = 1) := by
  funext c
  rw [h c]

/-- **C231** Then `markElements()` and `adapt()` refine every element on its own process as in a serial run, if no element is to be coarsened (in 2D; the length used for the longest edge is the one of
the indicator; no request is dropped). `M0` is the grid after a serial run, `M1` the one of the process `p`. -/
theorem C231_refine {ind ind' : Ind} (h1 : ind.minH = ind'.minH) (h2 : ind.maxH = ind'.maxH) (hf : ind.factor = 1) (hf' : ind'.factor = 1) {M M0 M1 : Plane} {owner : (Fin 3 → ℕ) → ℕ} {p : ℕ}
    {segs segs' : List (Point × Point)} (hm : 0 < ind.distProportion * Distance.maximum (distances (fun _ => 0) M 0 segs))
    (hm' : 0 < ind'.distProportion * Distance.maximum (distances owner M p segs')) {isInterface : ℕ → ℕ → Bool} (hM : Conforming ℝ M) (hD : Distinct M)
    (h0 : Carried M (requestsOn ℝ (fun x y => edgeLength (x 0, x 1) (y 0, y 1)) LongestEdge.triangleEdges isInterface (fun c => decide (decision ind (fun _ => 0) M 0 segs c = 1)) (fun _ => true) M) M0)
    (hp : Carried M (requestsOn ℝ (fun x y => edgeLength (x 0, x 1) (y 0, y 1)) LongestEdge.triangleEdges isInterface (fun c => decide (decision ind' owner M p segs' c = 1)) (presentOn owner M p) M) M1)
    {c : Fin 3 → ℕ} (hc : c ∈ M.cells) (ho : owner c = p) : Pieces ℝ M1 (fun i => M.pos (c i)) = Pieces ℝ M0 (fun i => M.pos (c i)) := by
  have h := decision_eq_one (C231_agree h1 h2 hf hf' M (fun _ => 0) owner 0 p segs segs' hm hm')
  rw [← h] at hp
  refine C226_plane (fun x y => ?_) (fun x y => ?_) LongestEdge.allEdges_triangle hM hD h0 hp (fun _ _ h => h) hc ho
  · unfold edgeLength
    simp only
    congr 1
    ring
  · exact Real.sqrt_nonneg _

theorem maximum_without {owner : (Fin 3 → ℕ) → ℕ} {M : Plane} {p : ℕ} {c : Fin 3 → ℕ} (hc : c ∈ localCells owner M p) : Distance.maximum (distances owner M p []) = Distance.high := by
  have hv : c 0 ∈ localVertices owner M p := by
    unfold localVertices
    rw [List.mem_dedup, List.mem_flatMap]
    exact ⟨c, hc, by simp⟩
  have hds : distances owner M p [] = List.replicate (localVertices owner M p).length Distance.high := by
    simp [distances, Distance.update]
  have hne : (distances owner M p []) ≠ [] := by
    rw [hds]
    simp only [ne_eq, List.replicate_eq_nil_iff, List.length_eq_zero_iff]
    exact List.ne_nil_of_mem hv
  have hmem := (Distance.C43_maximum (distances owner M p []) fun d hd => by
    rw [hds] at hd
    rw [List.eq_of_mem_replicate hd]
    unfold Distance.high
    positivity).2 hne
  rw [hds] at hmem ⊢
  exact List.eq_of_mem_replicate hmem

/-! ## A fan of four elements on two processes -/

/-- The triangle with the corners (0, 0), (1, 0), (0, 6), divided at the points (1/2, 3), (2/3, 2), (5/6, 1) of the long side. -/
noncomputable def fan0 : Plane := { cells := [![0, 1, 2]], pos := fun v => if v = 1 then ![1, 0] else if v = 2 then ![0, 6] else ![0, 0] }

noncomputable def fan1 : Plane := insertAt fan0 {1, 2} 3 ((1 / 2 : ℝ) • fan0.pos 1 + (1 - 1 / 2 : ℝ) • fan0.pos 2)

noncomputable def fan2 : Plane := insertAt fan1 {1, 3} 4 ((1 / 3 : ℝ) • fan1.pos 1 + (1 - 1 / 3 : ℝ) • fan1.pos 3)

noncomputable def fan : Plane := insertAt fan2 {1, 4} 5 ((1 / 2 : ℝ) • fan2.pos 1 + (1 - 1 / 2 : ℝ) • fan2.pos 4)

theorem fan_cells : fan.cells = [![0, 3, 2], ![0, 4, 3], ![0, 5, 4], ![0, 1, 5]] := by decide

theorem conforming_fan : Conforming ℝ fan := by
  have h0 : Conforming ℝ fan0 := conforming_single (pos := fan0.pos) (by rw [volume_plane]; simp [fan0])
  have h1 : Conforming ℝ fan1 := conforming_insertAt (inside_edge fan0.pos (a := 1) (b := 2) (by decide) (by norm_num) (by norm_num)) (by unfold Fresh; decide) h0.inj (by decide) h0
  have h2 : Conforming ℝ fan2 := conforming_insertAt (inside_edge fan1.pos (a := 1) (b := 3) (by decide) (by norm_num) (by norm_num)) (by unfold Fresh; decide) h1.inj (by decide) h1
  exact conforming_insertAt (inside_edge fan2.pos (a := 1) (b := 4) (by decide) (by norm_num) (by norm_num)) (by unfold Fresh; decide) h2.inj (by decide) h2

theorem distinct_fan : Distinct fan := by
  intro c hc c' hc' h
  rw [fan_cells] at hc hc'
  have key : ∀ c ∈ [![0, 3, 2], ![0, 4, 3], ![0, 5, 4], ![0, 1, 5]], ∀ c' ∈ [![0, 3, 2], ![0, 4, 3], ![0, 5, 4], ![0, 1, 5]], (Finset.univ.image c : Finset ℕ) = Finset.univ.image c' → c = c' := by
    decide
  refine key c hc c' hc' ?_
  ext v
  have := congrArg (v ∈ ·) h
  simpa [eq_iff_iff] using this

/-- The two elements at (1, 0) belong to process 0, the others to process 1. -/
def fanOwner (c : Fin 3 → ℕ) : ℕ := if c = ![0, 4, 3] ∨ c = ![0, 3, 2] then 1 else 0

theorem fan_points : point fan 0 = (0, 0) ∧ point fan 1 = (1, 0) ∧ point fan 2 = (0, 6) ∧ point fan 3 = (1 / 2, 3) ∧ point fan 4 = (2 / 3, 2) ∧ point fan 5 = (5 / 6, 1) := by
  refine ⟨?_, ?_, ?_, ?_, ?_, ?_⟩ <;> simp [point, fan, fan2, fan1, fan0, insertAt, Function.update] <;> norm_num

theorem fan_local0 : localCells fanOwner fan 0 = [![0, 4, 3], ![0, 5, 4], ![0, 1, 5]] := by decide

theorem fan_local1 : localCells fanOwner fan 1 = [![0, 3, 2], ![0, 4, 3], ![0, 5, 4]] := by decide

theorem fan_serial : localCells (fun _ => 0) fan 0 = [![0, 3, 2], ![0, 4, 3], ![0, 5, 4], ![0, 1, 5]] := by decide

/-- **C231** for the fan, with edge lengths from 1/10 to 2 permitted: process 0 decides like process 1 and like a serial run. -/
example (c : Fin 3 → ℕ) : decision ⟨1 / 10, 2, 1, 1, 0⟩ fanOwner fan 0 [] c = decision ⟨1 / 10, 2, 1, 1, 5⟩ fanOwner fan 1 [] c ∧
    decision ⟨1 / 10, 2, 1, 1, 0⟩ fanOwner fan 0 [] c = decision ⟨1 / 10, 2, 1, 1, 7⟩ (fun _ => 0) fan 0 [] c := by
  have hb : ∀ p, p = 0 ∨ p = 1 → (0 : ℝ) < 1 * Distance.maximum (distances fanOwner fan p []) := by
    intro p hp
    rw [C231_border fanOwner fan p [] (v := 0) (by rcases hp with rfl | rfl <;> decide) (by rcases hp with rfl | rfl <;> decide)]
    norm_num
  have hs : (0 : ℝ) < 1 * Distance.maximum (distances (fun _ => 0) fan 0 []) := by
    rw [maximum_without (c := ![0, 1, 5]) (by decide)]
    unfold Distance.high
    norm_num
  exact ⟨C231_agree rfl rfl rfl rfl fan _ _ _ _ _ _ (hb 0 (Or.inl rfl)) (hb 1 (Or.inr rfl)) c, C231_agree rfl rfl rfl rfl fan _ _ _ _ _ _ (hb 0 (Or.inl rfl)) hs c⟩

/-! ## C232: the settings of the constructor -/

theorem decision_without {ind : Ind} (hp : ind.distProportion = 1) {owner : (Fin 3 → ℕ) → ℕ} {M : Plane} {p : ℕ} {c : Fin 3 → ℕ} (hc : c ∈ localCells owner M p) :
    ∃ I d, decision (initial ind owner M p []) owner M p [] c = indicateTriangle I d (point M (c 0)) (point M (c 1)) (point M (c 2)) ∧
      limits I d = ((range (localEdges owner M p)).1 / (range (localEdges owner M p)).2 * ((range (localEdges owner M p)).2 / 4),
        (range (localEdges owner M p)).1 / (range (localEdges owner M p)).2 * (2 * (range (localEdges owner M p)).1)) := by
  refine ⟨_, _, rfl, ?_⟩
  have hv : ∀ i : Fin 3, c i ∈ localVertices owner M p := by
    intro i
    unfold localVertices
    rw [List.mem_dedup, List.mem_flatMap]
    refine ⟨c, hc, ?_⟩
    fin_cases i <;> simp
  have hds : distances owner M p [] = List.replicate (localVertices owner M p).length Distance.high := by
    simp [distances, Distance.update]
  have hidx : ∀ i : Fin 3, (distances owner M p []).getD ((localVertices owner M p).idxOf (c i)) 0 = Distance.high := by
    intro i
    have := List.idxOf_lt_length_iff.2 (hv i)
    rw [hds]
    simp [List.getD, this]
  have hmax := maximum_without hc
  have hh : (0 : ℝ) < Distance.high := by unfold Distance.high; positivity
  rw [hmax]
  unfold Distance.elementDistance
  rw [hidx 0, hidx 1, hidx 2]
  have e : (0 + Distance.high + Distance.high + Distance.high) / 3 = Distance.high := by ring
  rw [e]
  unfold limits update initial init smallK bigK edgeRatio
  simp only [hp, List.isEmpty_nil, if_true, one_mul, min_self, div_self hh.ne', sub_self, zero_mul, zero_add]
  refine Prod.ext ?_ ?_ <;> (simp only; try ring)

/-- The lengths of the edges of the three smaller elements are between 1 and 4. -/
theorem fan_small : ∀ c ∈ [![0, 4, 3], ![0, 5, 4], ![0, 1, 5]], ∀ e ∈ edges (point fan (c 0)) (point fan (c 1)) (point fan (c 2)), 1 ≤ e ∧ e ≤ 4 := by
  obtain ⟨h0, h1, h2, h3, h4, h5⟩ := fan_points
  have key : ∀ x : ℝ, 1 ≤ x → x ≤ 16 → 1 ≤ Real.sqrt x ∧ Real.sqrt x ≤ 4 := fun x h h' =>
    ⟨by rw [Real.one_le_sqrt]; exact h, by rw [Real.sqrt_le_left (by norm_num)]; linarith⟩
  intro c hc
  simp only [List.mem_cons, List.not_mem_nil, or_false] at hc
  rcases hc with rfl | rfl | rfl <;> intro e he <;> simp only [edges, dist, Matrix.cons_val_zero, Matrix.cons_val_one, Matrix.cons_val, h0, h1, h3, h4, h5, List.mem_cons, List.not_mem_nil, or_false] at he <;>
    rcases he with rfl | rfl | rfl <;> apply key <;> norm_num

/-- They are well shaped. -/
theorem fan_shape : ∀ c ∈ [![0, 4, 3], ![0, 5, 4], ![0, 1, 5]], NotCollinear (point fan (c 0)) (point fan (c 1)) (point fan (c 2)) ∧
    ∀ lo ≤ 1, ¬ WantsCoarsening (point fan (c 0)) (point fan (c 1)) (point fan (c 2)) lo := by
  obtain ⟨h0, h1, h2, h3, h4, h5⟩ := fan_points
  intro c hc
  have hn : NotCollinear (point fan (c 0)) (point fan (c 1)) (point fan (c 2)) := by
    simp only [List.mem_cons, List.not_mem_nil, or_false] at hc
    rcases hc with rfl | rfl | rfl <;> simp only [NotCollinear, Matrix.cons_val_zero, Matrix.cons_val_one, Matrix.cons_val, h0, h1, h3, h4, h5] <;> norm_num
  refine ⟨hn, fun lo hlo => ?_⟩
  have hs := fan_small c hc
  have hR : dist (circumcenter (point fan (c 0)) (point fan (c 1)) (point fan (c 2))) (point fan (c 0)) ≤ 4 ∧ triangleVolume (point fan (c 0)) (point fan (c 1)) (point fan (c 2)) = 1 / 2 := by
    constructor
    · unfold dist
      rw [Real.sqrt_le_left (by norm_num), circ_sq rfl (mul_ne_zero two_ne_zero (sub_ne_zero.2 hn))]
      simp only [List.mem_cons, List.not_mem_nil, or_false] at hc
      rcases hc with rfl | rfl | rfl <;> simp only [Matrix.cons_val_zero, Matrix.cons_val_one, Matrix.cons_val, h0, h1, h3, h4, h5] <;> norm_num
    · simp only [List.mem_cons, List.not_mem_nil, or_false] at hc
      rcases hc with rfl | rfl | rfl <;> simp only [triangleVolume, Matrix.cons_val_zero, Matrix.cons_val_one, Matrix.cons_val, h0, h1, h3, h4, h5] <;> norm_num
  rintro (⟨e, he, h⟩ | ⟨e, he, f, hf, h⟩ | ⟨R, ρ, h, h', hlt⟩)
  · linarith [(hs e he).1]
  · linarith [(hs e he).2, (hs f hf).1]
  · rw [isCircumradius_iff hn] at h
    rw [isInradius_iff hn, hR.2] at h'
    have hsum : (edges (point fan (c 0)) (point fan (c 1)) (point fan (c 2))).sum ≤ 12 ∧ 0 < (edges (point fan (c 0)) (point fan (c 1)) (point fan (c 2))).sum := by
      simp only [edges, List.mem_cons, List.not_mem_nil, or_false, forall_eq_or_imp, forall_eq] at hs
      simp only [edges, List.sum_cons, List.sum_nil]
      constructor <;> linarith [hs.1.1, hs.1.2, hs.2.1.1, hs.2.1.2, hs.2.2.1, hs.2.2.2]
    have : 1 / 12 ≤ ρ := by
      rw [h', div_le_div_iff₀ (by norm_num) hsum.2]
      linarith [hsum.1]
    linarith [hR.1]

/-- On process 0 nothing is marked. -/
theorem fan_zero {ind : Ind} (hp : ind.distProportion = 1) : ∀ c ∈ localCells fanOwner fan 0, decision (initial ind fanOwner fan 0 []) fanOwner fan 0 [] c = 0 := by
  intro c hc
  obtain ⟨I, d, h1, h2⟩ := decision_without hp hc
  have hlens : ∀ e ∈ localEdges fanOwner fan 0, 1 ≤ e ∧ e ≤ 4 := by
    intro e he
    unfold localEdges at he
    rw [fan_local0] at he
    obtain ⟨c', hc', he⟩ := List.mem_flatMap.1 he
    exact fan_small c' hc' e he
  have hin : ∀ e ∈ edges (point fan (c 0)) (point fan (c 1)) (point fan (c 2)), e ∈ localEdges fanOwner fan 0 := fun e he => List.mem_flatMap.2 ⟨c, hc, he⟩
  have h100 : (4 : ℝ) < 10 ^ 100 := by norm_num
  obtain ⟨r1, r2, r3⟩ := range_extrema (lens := localEdges fanOwner fan 0)
    ⟨List.ne_nil_of_mem (hin _ (by unfold edges; exact List.mem_cons_self)), fun e he => ⟨by linarith [(hlens e he).1], by linarith [(hlens e he).2]⟩⟩
  rw [fan_local0] at hc
  obtain ⟨hn, hs⟩ := fan_shape c hc
  have hb : ∀ e ∈ edges (point fan (c 0)) (point fan (c 1)) (point fan (c 2)), e < 10 ^ 100 := fun e he => by linarith [(fan_small c hc e he).2]
  have p2 := hlens _ r2
  have p1 := hlens _ r1
  generalize range (localEdges fanOwner fan 0) = b at *
  have hb2 : 0 < b.2 := by linarith [p2.1]
  have l1 : (limits I d).1 ≤ 1 := by
    rw [h2]
    simp only
    rw [div_mul_div_comm, mul_comm b.1 b.2, mul_div_mul_left _ _ hb2.ne']
    linarith [p1.2]
  have l2 : ∀ e ∈ edges (point fan (c 0)) (point fan (c 1)) (point fan (c 2)), e ≤ (limits I d).2 := by
    intro e he
    have he' := (r3 e (hin e he)).2
    rw [h2]
    simp only
    have : 1 ≤ b.1 / b.2 := by rw [le_div_iff₀ hb2, one_mul]; exact (r3 _ r2).2
    nlinarith [p1.1]
  have n1 : ¬ indicateTriangle I d (point fan (c 0)) (point fan (c 1)) (point fan (c 2)) = -1 := by
    rw [C44_coarsen I d hn hb]
    exact hs _ l1
  have n2 : ¬ indicateTriangle I d (point fan (c 0)) (point fan (c 1)) (point fan (c 2)) = 1 := by
    rw [C44_refine I d hn hb]
    rintro ⟨-, e, he, h⟩
    linarith [l2 e he]
  rw [h1]
  revert n1 n2
  unfold indicateTriangle indicate
  simp only
  split_ifs <;> simp

/-- On a process with the large element, all elements with a short edge are to be coarsened. -/
theorem fan_coarse {ind : Ind} (hp : ind.distProportion = 1) {owner : (Fin 3 → ℕ) → ℕ} {p : ℕ} (hbig : ![0, 3, 2] ∈ localCells owner fan p) {c : Fin 3 → ℕ} (hc : c ∈ localCells owner fan p)
    (hsmall : c ∈ [![0, 4, 3], ![0, 5, 4], ![0, 1, 5]]) : decision (initial ind owner fan p []) owner fan p [] c = -1 := by
  obtain ⟨I, d, h1, h2⟩ := decision_without hp hc
  obtain ⟨h0, g1, g2, g3, g4, g5⟩ := fan_points
  have key : ∀ x : ℝ, 1 ≤ x → x ≤ 49 → 1 ≤ Real.sqrt x ∧ Real.sqrt x ≤ 7 := fun x h h' =>
    ⟨by rw [Real.one_le_sqrt]; exact h, by rw [Real.sqrt_le_left (by norm_num)]; linarith⟩
  have hlens : ∀ e ∈ localEdges owner fan p, 1 ≤ e ∧ e ≤ 7 := by
    intro e he
    obtain ⟨c', hc', he⟩ := List.mem_flatMap.1 he
    have hc'' : c' ∈ fan.cells := (List.mem_filter.1 hc').1
    rw [fan_cells] at hc''
    rcases List.mem_cons.1 hc'' with rfl | hc''
    · simp only [edges, dist, Matrix.cons_val_zero, Matrix.cons_val_one, Matrix.cons_val, h0, g2, g3, List.mem_cons, List.not_mem_nil, or_false] at he
      rcases he with rfl | rfl | rfl <;> apply key <;> norm_num
    · have := fan_small c' hc'' e he
      exact ⟨this.1, by linarith [this.2]⟩
  have hsix : (6 : ℝ) ∈ localEdges owner fan p := by
    refine List.mem_flatMap.2 ⟨_, hbig, ?_⟩
    simp only [edges, dist, Matrix.cons_val_zero, Matrix.cons_val_one, Matrix.cons_val, h0, g2, g3, List.mem_cons, List.not_mem_nil, or_false]
    refine Or.inr (Or.inl ?_)
    norm_num
    rw [show (36 : ℝ) = 6 ^ 2 by norm_num, Real.sqrt_sq (by norm_num)]
  have h100 : (7 : ℝ) < 10 ^ 100 := by norm_num
  obtain ⟨r1, r2, r3⟩ := range_extrema (lens := localEdges owner fan p) ⟨List.ne_nil_of_mem hsix, fun e he => ⟨by linarith [(hlens e he).1], by linarith [(hlens e he).2]⟩⟩
  obtain ⟨hn, -⟩ := fan_shape c hsmall
  have hb : ∀ e ∈ edges (point fan (c 0)) (point fan (c 1)) (point fan (c 2)), e < 10 ^ 100 := fun e he => by linarith [(fan_small c hsmall e he).2]
  have p2 := hlens _ r2
  have p1 := (r3 _ hsix).2
  generalize range (localEdges owner fan p) = b at *
  have hb2 : 0 < b.2 := by linarith [p2.1]
  rw [h1, C44_coarsen I d hn hb]
  refine Or.inl ⟨Real.sqrt (37 / 36), ?_, ?_⟩
  · simp only [List.mem_cons, List.not_mem_nil, or_false] at hsmall
    rcases hsmall with rfl | rfl | rfl <;> simp only [edges, dist, Matrix.cons_val_zero, Matrix.cons_val_one, Matrix.cons_val, h0, g1, g3, g4, g5, List.mem_cons, List.not_mem_nil, or_false] <;>
      exact Or.inr (Or.inr (by congr 1; norm_num))
  · rw [h2]
    simp only
    rw [div_mul_div_comm, mul_comm b.1 b.2, mul_div_mul_left _ _ hb2.ne']
    have : Real.sqrt (37 / 36) < 3 / 2 := by rw [Real.sqrt_lt' (by norm_num)]; norm_num
    linarith

/-- **C232** With the settings made by the constructor of the grid, a process does not decide about its own elements as a serial run: the permitted edge lengths come from the edges that are present on the
process. -/
theorem C232_serial_false : ¬ ∀ (ind : Ind) (M : Plane) (owner : (Fin 3 → ℕ) → ℕ) (p : ℕ), ind.distProportion = 1 → Conforming ℝ M → Distinct M → ∀ c ∈ M.cells, owner c = p →
    decision (initial ind owner M p []) owner M p [] c = decision (initial ind (fun _ => 0) M 0 []) (fun _ => 0) M 0 [] c := by
  intro h
  have := h ⟨0, 0, 1, 1, 0⟩ fan fanOwner 0 rfl conforming_fan distinct_fan ![0, 1, 5] (by decide) (by decide)
  rw [fan_zero rfl _ (by decide), fan_coarse rfl (by decide) (by decide) (by decide)] at this
  exact absurd this (by decide)

/-- **C232** Two processes decide differently about the same element: the owner of an element wants it coarsened, for the process where it is a ghost there is nothing to do. -/
theorem C232_ghost_false : ¬ ∀ (ind : Ind) (M : Plane) (owner : (Fin 3 → ℕ) → ℕ) (p : ℕ), ind.distProportion = 1 → Conforming ℝ M → Distinct M → ∀ c ∈ localCells owner M p,
    decision (initial ind owner M p []) owner M p [] c = decision (initial ind owner M (owner c) []) owner M (owner c) [] c := by
  intro h
  have := h ⟨0, 0, 1, 1, 0⟩ fan fanOwner 0 rfl conforming_fan distinct_fan ![0, 4, 3] (by decide)
  rw [fan_zero rfl _ (by decide), fan_coarse rfl (by decide) (by decide) (by decide)] at this
  exact absurd this (by decide)

/-- **C232** The result of `markElements()`, i.e. if some element is marked, is not the same on all processes. -/
theorem C232_return_false : ¬ ∀ (ind : Ind) (M : Plane) (owner : (Fin 3 → ℕ) → ℕ) (p q : ℕ), ind.distProportion = 1 → Conforming ℝ M → Distinct M →
    ((∃ c ∈ localCells owner M p, decision (initial ind owner M p []) owner M p [] c ≠ 0) ↔ ∃ c ∈ localCells owner M q, decision (initial ind owner M q []) owner M q [] c ≠ 0) := by
  intro h
  obtain ⟨c, hc, hne⟩ := (h ⟨0, 0, 1, 1, 0⟩ fan fanOwner 0 1 rfl conforming_fan distinct_fan).2 ⟨![0, 4, 3], by decide, by rw [fan_coarse rfl (by decide) (by decide) (by decide)]; decide⟩
  exact hne (fan_zero rfl c hc)

/-- **C232** According to the documentation elements whose distance to the interface is greater than `distProportion` times the largest distance get the edge lengths from `factor * minH` to
`factor * maxH`. This is not so on a process with a vertex at its border: there the value is `1e100`, so the largest value is `1e100`. -/
theorem C232_far_false : ¬ ∀ (ind : Ind) (vs : List (Bool × Point)) (segs : List (Point × Point)) (i j k : ℕ), 0 < ind.distProportion → segs ≠ [] →
    (∀ n ∈ [i, j, k], ∃ p, vs[n]? = some (true, p)) → (∀ n p, vs[n]? = some (true, p) → ind.distProportion * (Distance.update vs segs).getD n 0 < Distance.elementDistance (Distance.update vs segs) i j k) →
    limits (update ind (Distance.maximum (Distance.update vs segs))) (Distance.elementDistance (Distance.update vs segs) i j k) = (ind.factor * ind.minH, ind.factor * ind.maxH) := by
  intro h
  have hu : Distance.update [(true, (0, 0)), (true, (0, 1)), (true, (1, 0)), (false, (1, 1))] [((0, 0), (0, 1))] = [0, 0, 1, 10 ^ 100] := by
    have s0 : Real.sqrt 0 = 0 := Real.sqrt_zero
    have s1 : Real.sqrt 1 = 1 := Real.sqrt_one
    simp [Distance.update, Distance.handleFacet, Distance.computeDistance, Distance.dot, Distance.norm2, Distance.high, s0, s1]
    norm_num
  have := h ⟨1, 8, 1 / 4, 2, 0⟩ [(true, (0, 0)), (true, (0, 1)), (true, (1, 0)), (false, (1, 1))] [((0, 0), (0, 1))] 0 1 2 (by norm_num) (by simp)
    (by intro n hn; simp only [List.mem_cons, List.not_mem_nil, or_false] at hn; rcases hn with rfl | rfl | rfl <;> exact ⟨_, rfl⟩)
    (by
      rw [hu]
      intro n p hn
      match n, hn with
      | 0, _ => norm_num [Distance.elementDistance]
      | 1, _ => norm_num [Distance.elementDistance]
      | 2, _ => norm_num [Distance.elementDistance]
      | 3, hn => simp at hn
      | n + 4, hn => simp at hn)
  rw [hu] at this
  have := congrArg Prod.fst this
  revert this
  norm_num [limits, update, Distance.maximum, Distance.elementDistance]

end Verif.Indicator
