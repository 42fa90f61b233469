import Verif.RefElem.Lemmas
import Mathlib.Algebra.Module.Pi
import Mathlib.Algebra.Module.BigOperators
import Mathlib.Tactic.Abel
import Mathlib.Algebra.Field.Defs

/-!
# C04, C07, C08, C09: local numberings, sub-entity ids, conforming geometries

Specification vocabulary: `IsIdOf l S` says that `l` is the ascending list of the numbers in `S`.
A cell is *well formed* if its vertices have distinct ids and its `cgalIndex` was computed from them.
-/

namespace Verif.RefElem

open Finset

/-- `l` is the list of the vertex numbers in `S` in ascending order. -/
def IsIdOf (l : List ℕ) (S : Set ℕ) : Prop := l.Pairwise (· < ·) ∧ ∀ x, x ∈ l ↔ x ∈ S

/-- The ids of the vertices of the facet opposite to slot `s`. -/
def facetVertices {d : ℕ} (ids : Fin (d + 1) → ℕ) (s : Fin (d + 1)) : Set ℕ := {x | ∃ t, t ≠ s ∧ ids t = x}

/-- A cell as the grid stores it after an id set update: distinct vertex ids, `cgalIndex` sorted by id. -/
def WellFormed {d : ℕ} (e : Cell d) : Prop :=
  Function.Injective e.ids ∧ e.c = computeCGALIndices e.ids

theorem WellFormed.cases {d : ℕ} {e : Cell d} (h : WellFormed e) :
    ∃ ids, Function.Injective ids ∧ e = ⟨ids, computeCGALIndices ids⟩ := by
  obtain ⟨ids, c⟩ := e
  exact ⟨ids, h.1, by rw [← h.2]⟩

/-- A tetrahedron with scrambled ids used in the examples. -/
def exTet : Cell 3 := ⟨fun i => [40, 10, 30, 20].get i, computeCGALIndices (fun i => [40, 10, 30, 20].get i)⟩

theorem exTet_wf : WellFormed exTet := ⟨by decide, rfl⟩

/-- A triangle with scrambled ids used in the examples. -/
def exTri : Cell 2 := ⟨fun i => [9, 4, 7].get i, computeCGALIndices (fun i => [9, 4, 7].get i)⟩

theorem exTri_wf : WellFormed exTri := ⟨by decide, rfl⟩

/-- A neighbour of `exTri` across the edge with ids 4 and 9. -/
def exTri' : Cell 2 := ⟨fun i => [4, 9, 1].get i, computeCGALIndices (fun i => [4, 9, 1].get i)⟩

theorem exTri'_wf : WellFormed exTri' := ⟨by decide, rfl⟩

/-! ## C07 -/

/-- **C07** Corner `k` of an element is the vertex with the `k`-th smallest id, and this determines
`cgalIndex`: every array that lists the slots in ascending order of ids is equal to it. -/
theorem C07_cgalIndex_unique {n : ℕ} {ids : Fin n → ℕ} (h : Function.Injective ids)
    (c : Fin n → Fin n) (hc : StrictMono (ids ∘ c)) : c = computeCGALIndices ids := by
  have h1 := cgal_strictMono h
  have hci : Function.Injective c := fun a b hab => hc.injective (by simp [hab])
  have hs : Function.Surjective c := Finite.surjective_of_injective hci
  have : ids ∘ c = ids ∘ computeCGALIndices ids := by
    refine (StrictMono.range_inj hc h1).1 ?_
    rw [hs.range_comp, (computeCGALIndices ids).surjective.range_comp]
  funext k
  exact h (congrFun this k)

example : StrictMono (exTet.ids ∘ fun i : Fin 4 => ([1, 3, 2, 0] : List (Fin 4)).get i) := by decide

/-- **C07** The subtractions on `size_t` never wrap around. -/
theorem C07_no_wraparound {d : ℕ} (hd : d = 2 ∨ d = 3) (c : Equiv.Perm (Fin (d + 1))) (i : Fin (d + 1)) :
    duneFacetSum d c i ≤ (if d = 2 then 3 else 6) ∧ (if d = 2 then 1 else 3) ≤ cgalFacetSum d c i := by
  have h1 := sum_facet_add c i
  have h2 := sum_cgal_add c i
  have h3 := (c.symm i).isLt
  rcases hd with rfl | rfl
  · have e : ∑ i : Fin (2 + 1), i.val = 3 := by decide
    rw [e] at h1 h2; simp only [if_true]; omega
  · have e : ∑ i : Fin (3 + 1), i.val = 6 := by decide
    rw [e] at h1 h2; simp only [if_neg (by decide : ¬ (3 : ℕ) = 2)]; omega

/-- **C07** The two facet conversions are mutually inverse, for every order of the vertex ids. -/
theorem C07_facet_conversions_inverse {d : ℕ} (hd : d = 2 ∨ d = 3) (c : Equiv.Perm (Fin (d + 1)))
    (i : Fin (d + 1)) :
    (∃ s : Fin (d + 1), duneFacetToCgalSecond d c i = s.val ∧ cgalFacetToDuneFacet d c s = i.val) ∧
    (∃ f : Fin (d + 1), cgalFacetToDuneFacet d c i = f.val ∧ duneFacetToCgalSecond d c f = i.val) :=
  ⟨⟨c (Fin.rev i), second_eq hd c i, by rw [dune_eq hd]; simp⟩,
   ⟨Fin.rev (c.symm i), dune_eq hd c i, by rw [second_eq hd]; simp⟩⟩

/-- **C07** Facet `f` of an element in DUNE numbering is opposite to corner `d - f`, and conversely the facet
in slot `s` has the DUNE number `d - k` where `k` is the corner in slot `s`.  The vertices of facet `f` listed
by the element (`c (refFacet f k)`) are exactly the vertices in the other slots. -/
theorem C07_facet_same_vertices {d : ℕ} (hd : d = 2 ∨ d = 3) (c : Equiv.Perm (Fin (d + 1)))
    (f : Fin (d + 1)) :
    ∃ s : Fin (d + 1), duneFacetToCgalSecond d c f = s.val ∧
      ∀ t, t ≠ s ↔ ∃ k, c (refFacet f k) = t := by
  refine ⟨c (Fin.rev f), second_eq hd c f, fun t => ?_⟩
  constructor
  · intro h
    have : c.symm t ≠ Fin.rev f := fun h' => h (by rw [← h']; simp)
    obtain ⟨k, hk⟩ := Fin.exists_succAbove_eq this
    exact ⟨k, by rw [refFacet, hk]; simp⟩
  · rintro ⟨k, rfl⟩ h
    exact Fin.succAbove_ne _ _ (c.injective h)

/-! ## C08 -/

/-- **C08** In 3D the edge number computed for a pair of distinct slots is a valid edge number whose two
reference corners are the corners in these slots, smaller corner first; for every order of the vertex ids. -/
theorem C08_edge_vertices (c : Equiv.Perm (Fin 4)) (i j : Fin 4) (hij : i ≠ j) :
    ∃ h : cgalEdgeToDuneEdge c i j < 6,
      ({c (refEdgeVertex ⟨_, h⟩ 0), c (refEdgeVertex ⟨_, h⟩ 1)} : Set (Fin 4)) = {i, j} ∧
      refEdgeVertex ⟨_, h⟩ 0 < refEdgeVertex ⟨_, h⟩ 1 := by
  obtain ⟨h, h0, h1⟩ := edge_eq c i j hij
  have hne : c.symm i ≠ c.symm j := fun h => hij (c.symm.injective h)
  refine ⟨h, ?_, by rw [h0, h1]; exact min_lt_max.2 hne⟩
  rw [h0, h1]
  rcases le_total (c.symm i) (c.symm j) with hle | hle
  · simp [hle]
  · simp [hle, Set.pair_comm]

/-- **C08** Round trip: from edge number to host edge and back. -/
theorem C08_edge_roundtrip (c : Equiv.Perm (Fin 4)) (ids : Fin 4 → ℕ) (e : Fin 6) :
    let s := elementEdgeSlots ⟨ids, c⟩ e
    s.1 ≠ s.2 ∧ cgalEdgeToDuneEdge c s.1 s.2 = e.val ∧ cgalEdgeToDuneEdge c s.2 s.1 = e.val := by
  obtain ⟨h, hlt⟩ := edge_dune e
  have hng : ¬ refEdgeVertex e 0 > refEdgeVertex e 1 := not_lt.2 hlt.le
  refine ⟨fun h' => hlt.ne (c.injective h'), ?_, ?_⟩
  · simp only [elementEdgeSlots, cgalEdgeToDuneEdge, invertIndex_perm, Equiv.symm_apply_apply, if_neg hng]
    exact h
  · simp only [elementEdgeSlots, cgalEdgeToDuneEdge, invertIndex_perm, Equiv.symm_apply_apply, gt_iff_lt,
      if_pos hlt]
    exact h

example : cgalEdgeToDuneEdge (Equiv.swap (0 : Fin 4) 3) 0 1 = 4 := by decide

/-! ## C04 -/

/-- **C04** The id of an element is the ascending list of its vertex ids. -/
theorem C04_element_id {d : ℕ} (e : Cell d) (h : Function.Injective e.ids) :
    IsIdOf (elementId e) (Set.range e.ids) := by
  refine ⟨sortIds_strict ((List.nodup_finRange _).map h), fun x => ?_⟩
  rw [elementId, (sortIds_perm _).mem_iff]
  simp

/-- **C04** The id of a facet object is the ascending list of the ids of its vertices; this needs `cgalIndex`
only to be some permutation (it may be out of date). -/
theorem C04_facet_id {d : ℕ} (hd : d = 2 ∨ d = 3) {ids : Fin (d + 1) → ℕ} (h : Function.Injective ids)
    (c : Equiv.Perm (Fin (d + 1))) (s : Fin (d + 1)) :
    ∃ l, facetId ⟨ids, c⟩ s = some l ∧ IsIdOf l (facetVertices ids s) :=
  ⟨_, facetId_eq hd ids c s, sortIds_strict (facet_ids_nodup h c s), fun x => by
    rw [(sortIds_perm _).mem_iff, mem_facet_ids]; rfl⟩

/-- **C04** Two facet objects have the same id exactly when they have the same vertices, from whichever cell
and slot they were obtained. -/
theorem C04_facet_id_eq_iff {d : ℕ} (hd : d = 2 ∨ d = 3) {ids ids' : Fin (d + 1) → ℕ}
    (h : Function.Injective ids) (h' : Function.Injective ids') (c c' : Equiv.Perm (Fin (d + 1)))
    (s s' : Fin (d + 1)) :
    facetId ⟨ids, c⟩ s = facetId ⟨ids', c'⟩ s' ↔ facetVertices ids s = facetVertices ids' s' := by
  obtain ⟨l, hl, hl1, hl2⟩ := C04_facet_id hd h c s
  obtain ⟨l', hl', hl1', hl2'⟩ := C04_facet_id hd h' c' s'
  rw [hl, hl', Option.some_inj]
  constructor
  · rintro rfl
    ext x; rw [← hl2, ← hl2']
  · intro he
    exact sorted_ext hl1 hl1' (fun x => by rw [hl2, hl2', he])

example : facetVertices exTri.ids 2 = facetVertices exTri'.ids 2 := by
  ext x; simp only [facetVertices, Set.mem_ofPred_eq, Fin.exists_fin_succ, exTri, exTri']
  simp; tauto

/-- **C04** The id of an edge object in 3D is the ascending list of its two vertex ids. -/
theorem C04_edge_id {ids : Fin 4 → ℕ} (h : Function.Injective ids) (c : Equiv.Perm (Fin 4)) (i j : Fin 4)
    (hij : i ≠ j) : ∃ l, edgeId ⟨ids, c⟩ i j = some l ∧ IsIdOf l {ids i, ids j} := by
  obtain ⟨hb, hs, hlt⟩ := C08_edge_vertices c i j hij
  have hne : c (refEdgeVertex ⟨_, hb⟩ 0) ≠ c (refEdgeVertex ⟨_, hb⟩ 1) := fun h => hlt.ne (c.injective h)
  refine ⟨sortIds [ids (c (refEdgeVertex ⟨_, hb⟩ 0)), ids (c (refEdgeVertex ⟨_, hb⟩ 1))], ?_, ?_, fun x => ?_⟩
  · unfold edgeId edgeVertexSlot
    simp only [dif_pos hb, Option.map_some, mapM_some]
    rfl
  · refine sortIds_strict ?_
    simp only [List.nodup_cons, List.mem_singleton, List.not_mem_nil, not_false_eq_true, List.nodup_nil,
      and_true]
    exact fun h' => hne (h h')
  · rw [(sortIds_perm _).mem_iff]
    have : ({ids i, ids j} : Set ℕ) = ids '' {i, j} := by simp [Set.image_pair]
    rw [this, ← hs, Set.image_pair]
    simp

/-- **C04** In 2D, `subId(e, i, 1)` is the id of `e.subEntity<1>(i)`.  The special case for the placeholder id
needs no exception: it agrees with the general rule. -/
theorem C04_subId_facet_2d (e : Cell 2) (he : WellFormed e) (i : Fin 3) :
    subId2Facet (elementId e) i = (elementFacetSlot e i).bind (facetId e) := by
  obtain ⟨ids, h, rfl⟩ := he.cases
  simp only [elementFacetSlot_eq (Or.inl rfl), Option.bind_some, facetId_eq (Or.inl rfl), elementId_sorted h,
    Equiv.symm_apply_apply]
  have hm := cgal_strictMono h
  have h01 := hm (by decide : (0 : Fin 3) < 1)
  have h12 := hm (by decide : (1 : Fin 3) < 2)
  have h02 := hm (by decide : (0 : Fin 3) < 2)
  rw [sortIds_of_strict (map_finRange_strict (f := fun k =>
    ids (computeCGALIndices ids ((Fin.rev i).succAbove k))) (hm.comp (Fin.strictMono_succAbove _)))]
  generalize computeCGALIndices ids = p at *
  simp only [Function.comp] at h01 h12 h02
  unfold subId2Facet
  have e3 : (List.finRange (2 + 1)).map (ids ∘ p) = [ids (p 0), ids (p 1), ids (p 2)] := rfl
  rw [e3]
  by_cases hdum : [ids (p 0), ids (p 1), ids (p 2)] = dummyId
  · rw [if_neg (not_not.2 hdum)]
    simp only [dummyId, List.cons.injEq, and_true] at hdum
    obtain ⟨a, b, c⟩ := hdum
    match i with
    | 0 => exact congrArg some (List.cons_eq_cons.2 ⟨a.symm, List.cons_eq_cons.2 ⟨b.symm, rfl⟩⟩)
    | 1 => exact congrArg some (List.cons_eq_cons.2 ⟨a.symm, List.cons_eq_cons.2 ⟨c.symm, rfl⟩⟩)
    | 2 => exact congrArg some (List.cons_eq_cons.2 ⟨b.symm, List.cons_eq_cons.2 ⟨c.symm, rfl⟩⟩)
  · rw [if_pos hdum]
    match i with
    | 0 => simp [h01.le]; rfl
    | 1 => simp [h02.le]; rfl
    | 2 => simp [h12.le]; rfl

example : subId2Facet (elementId exTri) 1 = some [4, 9] := by
  have : elementId exTri = [4, 7, 9] := by decide
  rw [this]; rfl

/-- **C04** In 2D, `subId(e, i, 2)` is the id of the `i`-th corner. -/
theorem C04_subId_vertex_2d (e : Cell 2) (he : WellFormed e) (i : Fin 3) :
    subId2Vertex (elementId e) i = some (e.ids (elementVertexSlot e i)) := by
  obtain ⟨ids, h, rfl⟩ := he.cases
  simp only [elementId_sorted h, elementVertexSlot]
  generalize computeCGALIndices ids = p
  unfold subId2Vertex
  have e3 : (List.finRange (2 + 1)).map (ids ∘ p) = [ids (p 0), ids (p 1), ids (p 2)] := rfl
  rw [e3]
  by_cases hdum : [ids (p 0), ids (p 1), ids (p 2)] = dummyId
  · rw [if_neg (not_not.2 hdum)]
    simp only [dummyId, List.cons.injEq, and_true] at hdum
    obtain ⟨a, b, c⟩ := hdum
    match i with
    | 0 => simp [a]
    | 1 => simp [b]
    | 2 => simp [c]
  · rw [if_pos hdum]
    match i with
    | 0 => rfl
    | 1 => rfl
    | 2 => rfl

/-- **C04** In 3D, `subId(e, i, 1)` is the ascending list of the ids of the corners of reference facet `i`. -/
theorem C04_subId_facet_3d (e : Cell 3) (he : WellFormed e) (i : Fin 4) :
    ∃ l, subId3Facet e i = some l ∧ IsIdOf l {x | ∃ k, e.ids (elementVertexSlot e (refFacet i k)) = x} := by
  obtain ⟨ids, h, rfl⟩ := he.cases
  simp only [subId3Facet, elementFacetSlot_eq (Or.inr rfl), Option.bind_some]
  obtain ⟨l, hl, h1, h2⟩ := C04_facet_id (Or.inr rfl) h (computeCGALIndices ids)
    (computeCGALIndices ids (Fin.rev i))
  refine ⟨l, hl, h1, fun x => ?_⟩
  rw [h2]
  obtain ⟨s, hs, hv⟩ := C07_facet_same_vertices (Or.inr rfl) (computeCGALIndices ids) i
  have : s = computeCGALIndices ids (Fin.rev i) := Fin.ext (by rw [← hs, second_eq (Or.inr rfl)])
  subst this
  simp only [facetVertices, Set.mem_ofPred_eq, elementVertexSlot, hv]
  constructor
  · rintro ⟨t, ⟨k, rfl⟩, rfl⟩; exact ⟨k, rfl⟩
  · rintro ⟨k, rfl⟩; exact ⟨_, ⟨k, rfl⟩, rfl⟩

/-- **C04** In 3D, `subId(e, i, 2)` is the ascending list of the ids of the corners of reference edge `i`. -/
theorem C04_subId_edge_3d (e : Cell 3) (he : WellFormed e) (i : Fin 6) :
    ∃ l, subId3Edge e i = some l ∧
      IsIdOf l {e.ids (elementVertexSlot e (refEdge3 i).1), e.ids (elementVertexSlot e (refEdge3 i).2)} := by
  obtain ⟨ids, h, rfl⟩ := he.cases
  obtain ⟨hne, -, -⟩ := C08_edge_roundtrip (computeCGALIndices ids) ids i
  exact C04_edge_id h (computeCGALIndices ids) _ _ hne

/-- **C04** In 3D, `subId(e, i, 3)` is the `i`-th smallest vertex id. -/
theorem C04_subId_vertex_3d (e : Cell 3) (he : WellFormed e) (i : Fin 4) :
    (elementId e)[i.val]? = some (subId3Vertex e i) := by
  obtain ⟨ids, h, rfl⟩ := he.cases
  simp [elementId_sorted h, subId3Vertex, elementVertexSlot]

/-- The edge between the smallest and the largest vertex of `exTet`. -/
example : (subId3Edge exTet 3).isSome := by
  obtain ⟨l, hl, -⟩ := C04_subId_edge_3d exTet exTet_wf 3
  simp [hl]

/-! ## C09 -/

section geometry

variable {K V W : Type*} [Field K] [AddCommGroup V] [Module K V] [AddCommGroup W] [Module K W]

/-- The map of a DUNE `AffineGeometry` with the given corners: `x ↦ p₀ + Σ xₖ (pₖ₊₁ - p₀)`. -/
def affineGlobal {m : ℕ} (corner : Fin (m + 1) → V) (x : Fin m → K) : V :=
  corner 0 + ∑ k, x k • (corner k.succ - corner 0)

/-- Corner `k` of the reference simplex (geometry.hh:107-108, 217-219): the origin and the unit vectors. -/
def refCorner (K : Type*) [Field K] {d : ℕ} (k : Fin (d + 1)) : Fin d → K :=
  Fin.cases 0 (fun j => Pi.single j 1) k

theorem affineGlobal_refCorner {d : ℕ} (corner : Fin (d + 1) → V) (k : Fin (d + 1)) :
    affineGlobal corner (refCorner K k) = corner k := by
  refine Fin.cases ?_ (fun j => ?_) k
  · simp [affineGlobal, refCorner]
  · simp [affineGlobal, refCorner, Pi.single_apply, ite_smul]

theorem affineGlobal_comp {d m : ℕ} (corner : Fin (d + 1) → V) (g : Fin (m + 1) → Fin (d + 1))
    (x : Fin m → K) :
    affineGlobal corner (affineGlobal (fun k => refCorner K (g k)) x) = affineGlobal (corner ∘ g) x := by
  have key : ∀ y : Fin d → K, affineGlobal corner y
      = corner 0 + ∑ k, y k • (corner k.succ - corner 0) := fun y => rfl
  have lin : ∀ k, corner k = corner 0 + ∑ j, (refCorner K k) j • (corner j.succ - corner 0) :=
    fun k => (affineGlobal_refCorner (K := K) corner k).symm
  rw [key]
  simp only [affineGlobal, Function.comp]
  have h1 : ∀ j, (refCorner K (g 0) + ∑ k, x k • (refCorner K (g k.succ) - refCorner K (g 0))) j
      = refCorner K (g 0) j + ∑ k, x k * (refCorner K (g k.succ) j - refCorner K (g 0) j) := by
    intro j; simp [Finset.sum_apply]
  simp only [h1, add_smul, Finset.sum_add_distrib, Finset.sum_smul]
  rw [Finset.sum_comm, ← add_assoc, ← lin (g 0)]
  congr 1
  refine Finset.sum_congr rfl (fun k _ => ?_)
  have h2 : corner (g k.succ) - corner (g 0)
      = ∑ j, (refCorner K (g k.succ) j - refCorner K (g 0) j) • (corner j.succ - corner 0) := by
    rw [lin (g k.succ), lin (g 0)]
    simp only [sub_smul, Finset.sum_sub_distrib]
    abel
  rw [h2, Finset.smul_sum]
  simp only [mul_smul]

/-- Corners of `geometryInInside()` / `geometryInOutside()` (intersections.hh:147-159, geometry.hh:62-64,
106-111, 149-151, 216-223): reference corners selected by the local facet index. -/
def localFacetCorner2 (K : Type*) [Field K] (i : ℕ) (k : Fin 2) : Fin 2 → K :=
  refCorner K ((localVertices2 i).get ⟨k.val, k.isLt⟩)

/-- Same in 3D. -/
def localFacetCorner3 (K : Type*) [Field K] (i : ℕ) (k : Fin 3) : Fin 3 → K :=
  refCorner K ((localVertices3 i).get ⟨k.val, k.isLt⟩)

theorem local2 (f : Fin 3) (k : Fin 2) : (localVertices2 f.val).get ⟨k.val, k.isLt⟩ = refFacet (d := 2) f k := by
  revert f k; decide

theorem local3 (f : Fin 4) (k : Fin 3) : (localVertices3 f.val).get ⟨k.val, k.isLt⟩ = refFacet (d := 3) f k := by
  revert f k; decide

/-- **C09** 2D: composing the local geometry of an intersection in an adjacent element with the map of that
element gives the map of the intersection.  `pt` gives the point of each slot; the intersection's corners
are those of `Geometry(hostIntersection)`. -/
theorem C09_conforming_2d (e : Cell 2) (he : WellFormed e) (pt : Fin 3 → V) (s : Fin 3) (x : Fin 1 → K) :
    ∃ corner : Fin 2 → V, (∀ k, facetCorner e pt s k = some (corner k)) ∧
      affineGlobal (elementCorner e pt)
          (affineGlobal (localFacetCorner2 K (cgalFacetToDuneFacet 2 e.c s)) x)
        = affineGlobal corner x := by
  obtain ⟨ids, h, rfl⟩ := he.cases
  refine ⟨fun k => pt (computeCGALIndices ids (((computeCGALIndices ids).symm s).succAbove k)), fun k => ?_, ?_⟩
  · simp [facetCorner, facetVertexSlot_eq (Or.inl rfl)]
  · have : localFacetCorner2 K (cgalFacetToDuneFacet 2 (computeCGALIndices ids) s)
        = fun k => refCorner K (((computeCGALIndices ids).symm s).succAbove k) := by
      funext k
      rw [localFacetCorner2, dune_eq (Or.inl rfl), local2, refFacet, Fin.rev_rev]
    simp only [this]
    rw [affineGlobal_comp]
    rfl

/-- **C09** 3D version. -/
theorem C09_conforming_3d (e : Cell 3) (he : WellFormed e) (pt : Fin 4 → V) (s : Fin 4) (x : Fin 2 → K) :
    ∃ corner : Fin 3 → V, (∀ k, facetCorner e pt s k = some (corner k)) ∧
      affineGlobal (elementCorner e pt)
          (affineGlobal (localFacetCorner3 K (cgalFacetToDuneFacet 3 e.c s)) x)
        = affineGlobal corner x := by
  obtain ⟨ids, h, rfl⟩ := he.cases
  refine ⟨fun k => pt (computeCGALIndices ids (((computeCGALIndices ids).symm s).succAbove k)), fun k => ?_, ?_⟩
  · simp [facetCorner, facetVertexSlot_eq (Or.inr rfl)]
  · have : localFacetCorner3 K (cgalFacetToDuneFacet 3 (computeCGALIndices ids) s)
        = fun k => refCorner K (((computeCGALIndices ids).symm s).succAbove k) := by
      funext k
      rw [localFacetCorner3, dune_eq (Or.inr rfl), local3, refFacet, Fin.rev_rev]
    simp only [this]
    rw [affineGlobal_comp]
    rfl

end geometry

/-- **C09** The corners of a facet, in order, are the points of its vertices in ascending order of id.  Hence
the facet seen from its two adjacent cells has the same corners in the same order (points are attached to
vertices, so the point of a slot is `pos` of its vertex id). -/
theorem C09_facet_corners_agree {d : ℕ} (hd : d = 2 ∨ d = 3) {V : Type} (e e' : Cell d) (he : WellFormed e)
    (he' : WellFormed e') (pos : ℕ → V) (s s' : Fin (d + 1))
    (hs : facetVertices e.ids s = facetVertices e'.ids s') (k : Fin d) :
    facetCorner e (pos ∘ e.ids) s k = facetCorner e' (pos ∘ e'.ids) s' k ∧
    (facetCorner e (pos ∘ e.ids) s k).isSome := by
  obtain ⟨ids, h, rfl⟩ := he.cases
  obtain ⟨ids', h', rfl⟩ := he'.cases
  have key : ∀ {ids : Fin (d + 1) → ℕ} (h : Function.Injective ids) (s : Fin (d + 1)),
      StrictMono (fun k => ids (computeCGALIndices ids (((computeCGALIndices ids).symm s).succAbove k))) :=
    fun h s => (cgal_strictMono h).comp (Fin.strictMono_succAbove _)
  simp only [facetCorner, facetVertexSlot_eq hd, Option.map_some, Option.isSome_some, and_true,
    Function.comp, Option.some_inj]
  have hl := sorted_ext (map_finRange_strict (key h s)) (map_finRange_strict (key h' s')) (fun x => by
    rw [mem_facet_ids, mem_facet_ids]
    exact Set.ext_iff.1 hs x)
  have := congrArg (fun l => l[k.val]?) hl
  simp at this
  rw [this]

theorem facet_list {d : ℕ} (hd : d = 2 ∨ d = 3) {V : Type*} {ids : Fin (d + 1) → ℕ}
    (pt : Fin (d + 1) → V) (s : Fin (d + 1)) :
    (List.finRange d).mapM (facetCorner ⟨ids, computeCGALIndices ids⟩ pt s)
      = some ((List.finRange d).map (fun k => pt (computeCGALIndices ids
          (((computeCGALIndices ids).symm s).succAbove k)))) := by
  rw [← mapM_some]
  congr 1
  funext k
  simp [facetCorner, facetVertexSlot_eq hd]

/-- **C09** The interface element lying on an intersection has the same corners in the same order as the
intersection's `geometry()`; hence the same parametrisation. -/
theorem C09_interface_corners {d : ℕ} (hd : d = 2 ∨ d = 3) {V : Type*} (e : Cell d) (he : WellFormed e)
    (pt : Fin (d + 1) → V) (s : Fin (d + 1)) :
    (List.finRange d).mapM (facetCorner e pt s) = some (interfaceCorners e.ids pt s) := by
  obtain ⟨ids, h, rfl⟩ := he.cases
  rw [facet_list hd, Option.some_inj, interfaceCorners]
  have : (fun k => pt (computeCGALIndices ids (((computeCGALIndices ids).symm s).succAbove k)))
      = pt ∘ fun k : Fin d => computeCGALIndices ids (((computeCGALIndices ids).symm s).succAbove k) := rfl
  rw [this, ← List.map_map]
  congr 1
  -- both lists are sorted by id and contain the slots different from `s`
  have hmono : StrictMono fun k : Fin d =>
      ids (computeCGALIndices ids (((computeCGALIndices ids).symm s).succAbove k)) :=
    (cgal_strictMono h).comp (Fin.strictMono_succAbove _)
  have nd1 : ((List.finRange d).map
      (fun k => computeCGALIndices ids (((computeCGALIndices ids).symm s).succAbove k))).Nodup :=
    (List.nodup_finRange _).map
      (fun _ _ hab => Fin.succAbove_right_injective ((computeCGALIndices ids).injective hab))
  have nd2 : ((List.finRange d).map (fun i : Fin d => s + i.succ)).Nodup :=
    (List.nodup_finRange _).map (fun _ _ hab => Fin.succ_injective _ (add_left_cancel hab))
  have hperm : ((List.finRange d).map
      (fun k => computeCGALIndices ids (((computeCGALIndices ids).symm s).succAbove k))).Perm
      (interfaceIndices ids s) := by
    refine List.Perm.trans ?_ (List.perm_insertionSort _ _).symm
    rw [List.perm_ext_iff_of_nodup nd1 nd2]
    intro t
    simp only [List.mem_map, List.mem_finRange, true_and]
    constructor
    · rintro ⟨k, rfl⟩
      have hne : computeCGALIndices ids (((computeCGALIndices ids).symm s).succAbove k) ≠ s := fun h' =>
        Fin.succAbove_ne _ _ ((Equiv.eq_symm_apply _).2 h')
      have h0 : computeCGALIndices ids (((computeCGALIndices ids).symm s).succAbove k) - s ≠ 0 :=
        sub_ne_zero.2 hne
      obtain ⟨i, hi⟩ := Fin.exists_succ_eq_of_ne_zero h0
      exact ⟨i, by rw [hi]; abel⟩
    · rintro ⟨i, rfl⟩
      have hne : (computeCGALIndices ids).symm (s + i.succ) ≠ (computeCGALIndices ids).symm s := fun h' => by
        have := (computeCGALIndices ids).symm.injective h'
        exact Fin.succ_ne_zero i (by simpa using this)
      obtain ⟨k, hk⟩ := Fin.exists_succAbove_eq hne
      exact ⟨k, by rw [hk]; simp⟩
  refine hperm.eq_of_pairwise (le := fun a b => ids a ≤ ids b) (fun a b _ _ h1 h2 => h (by omega)) ?_ ?_
  · rw [List.pairwise_map]
    exact (List.pairwise_lt_finRange d).imp (fun {a b} hab => (hmono hab).le)
  · have : Std.Total (fun a b : Fin (d + 1) => ids a ≤ ids b) := ⟨fun a b => le_total _ _⟩
    have : IsTrans (Fin (d + 1)) (fun a b => ids a ≤ ids b) := ⟨fun a b c h1 h2 => le_trans h1 h2⟩
    exact List.pairwise_insertionSort _ _

/-- **C09** The two neighbours of an intersection agree: the physical point reached through the local geometry
in the inside element equals the one reached through the local geometry in the outside element (2D). -/
theorem C09_inside_outside_2d {K V : Type} [Field K] [AddCommGroup V] [Module K V] (e e' : Cell 2)
    (he : WellFormed e) (he' : WellFormed e') (pos : ℕ → V) (s s' : Fin 3)
    (hs : facetVertices e.ids s = facetVertices e'.ids s') (x : Fin 1 → K) :
    affineGlobal (elementCorner e (pos ∘ e.ids))
        (affineGlobal (localFacetCorner2 K (cgalFacetToDuneFacet 2 e.c s)) x)
      = affineGlobal (elementCorner e' (pos ∘ e'.ids))
        (affineGlobal (localFacetCorner2 K (cgalFacetToDuneFacet 2 e'.c s')) x) := by
  obtain ⟨c, hc, h⟩ := C09_conforming_2d e he (pos ∘ e.ids) s x
  obtain ⟨c', hc', h'⟩ := C09_conforming_2d e' he' (pos ∘ e'.ids) s' x
  rw [h, h']
  congr 1
  funext k
  have := (C09_facet_corners_agree (Or.inl rfl) e e' he he' pos s s' hs k).1
  rw [hc, hc', Option.some_inj] at this
  exact this

/-- **C09** 3D version. -/
theorem C09_inside_outside_3d {K V : Type} [Field K] [AddCommGroup V] [Module K V] (e e' : Cell 3)
    (he : WellFormed e) (he' : WellFormed e') (pos : ℕ → V) (s s' : Fin 4)
    (hs : facetVertices e.ids s = facetVertices e'.ids s') (x : Fin 2 → K) :
    affineGlobal (elementCorner e (pos ∘ e.ids))
        (affineGlobal (localFacetCorner3 K (cgalFacetToDuneFacet 3 e.c s)) x)
      = affineGlobal (elementCorner e' (pos ∘ e'.ids))
        (affineGlobal (localFacetCorner3 K (cgalFacetToDuneFacet 3 e'.c s')) x) := by
  obtain ⟨c, hc, h⟩ := C09_conforming_3d e he (pos ∘ e.ids) s x
  obtain ⟨c', hc', h'⟩ := C09_conforming_3d e' he' (pos ∘ e'.ids) s' x
  rw [h, h']
  congr 1
  funext k
  have := (C09_facet_corners_agree (Or.inr rfl) e e' he he' pos s s' hs k).1
  rw [hc, hc', Option.some_inj] at this
  exact this

/-- Non-vacuity: two triangles sharing the edge {4, 9}. -/
example : WellFormed exTri ∧ WellFormed exTri' ∧ facetVertices exTri.ids 2 = facetVertices exTri'.ids 2 := by
  refine ⟨exTri_wf, exTri'_wf, ?_⟩
  ext x; simp only [facetVertices, Set.mem_ofPred_eq, Fin.exists_fin_succ, exTri, exTri']
  simp; tauto

end Verif.RefElem
