import Verif.Circulate.Props
import Mathlib.Algebra.Order.Ring.Rat
import Mathlib.Tactic.NormNum
import Mathlib.Tactic.Linarith

/-!
# C168: an example; C169: a domain whose boundary touches itself in a vertex
-/

namespace Verif.Circulate

open Verif Tri Factory Normals

variable {K : Type*} [Field K] [LinearOrder K] [IsStrictOrderedRing K]

theorem orient_swap (a b c : V2 K) : b.orient a c = -(a.orient b c) := by unfold V2.orient; ring

/-- A finite check of the condition on the sides. -/
theorem sides_of_check {p : Nat → V2 K} {L : List (Fin 3 → Nat)} (h : L.Pairwise fun v v' => ∀ i i', facetOf v i = facetOf v' i' →
    (p (v (i + 1))).orient (p (v (i + 2))) (p (v i)) * (p (v (i + 1))).orient (p (v (i + 2))) (p (v' i')) < 0) :
    L.Pairwise fun v v' => ∀ i i' a b, a ≠ b → facetOf v i = {a, b} → facetOf v' i' = {a, b} →
    (p a).orient (p b) (p (v i)) * (p a).orient (p b) (p (v' i')) < 0 := by
  refine h.imp ?_
  intro v v' h i i' a b hab hv hv'
  have hlt := h i i' (hv.trans hv'.symm)
  have hf := facet_out v (i + 1)
  have k1 : ∀ i : Fin 3, i + 1 + 2 = i := by decide
  have k2 : ∀ i : Fin 3, i + 1 + 1 = i + 2 := by decide
  rw [k1, k2, hv] at hf
  have ha : a ∈ ({v (i + 1), v (i + 2)} : Finset Nat) := by rw [← hf]; simp
  have hb : b ∈ ({v (i + 1), v (i + 2)} : Finset Nat) := by rw [← hf]; simp
  simp only [Finset.mem_insert, Finset.mem_singleton] at ha hb
  rcases ha with ha | ha <;> rcases hb with hb | hb
  · exact absurd (ha.trans hb.symm) hab
  · rw [ha, hb]; exact hlt
  · rw [ha, hb, orient_swap, orient_swap (p (v (i + 1)))]; linarith
  · exact absurd (ha.trans hb.symm) hab

/-- A finite check of the condition on the fans, if two steps are enough. -/
theorem fans_of_check {L : List (Fin 3 → Nat)} (h : ∀ v ∈ L, ∀ v' ∈ L, ∀ i i', v i = v' i' → ∃ w ∈ L, (∃ j j', facetOf v j = facetOf w j' ∧ v i ∈ facetOf v j) ∧
    ∃ j j', facetOf w j = facetOf v' j' ∧ v i ∈ facetOf w j) :
    ∀ u, ∀ v ∈ L, ∀ v' ∈ L, (∃ i, v i = u) → (∃ i, v' i = u) →
      Relation.ReflTransGen (fun w w' => w' ∈ L ∧ ∃ i i', facetOf w i = facetOf w' i' ∧ u ∈ facetOf w i) v v' := by
  rintro u v hv v' hv' ⟨i, rfl⟩ ⟨i', e⟩
  obtain ⟨w, hw, h1, h2⟩ := h v hv v' hv' i i' e.symm
  exact (Relation.ReflTransGen.single ⟨hw, h1⟩).tail ⟨hv', h2⟩

/-! ### C168: four triangles around a vertex and a fifth one at the side -/

def starPoints : Nat → V2 ℚ := fun n => ([⟨0, 0⟩, ⟨1, 0⟩, ⟨0, 1⟩, ⟨-1, 0⟩, ⟨0, -1⟩, ⟨2, 2⟩] : List (V2 ℚ)).getD n ⟨0, 0⟩

def star : List (Fin 3 → Nat) := [![0, 1, 2], ![0, 3, 2], ![0, 3, 4], ![0, 1, 4], ![5, 2, 1]]

/-- The same sorted by the centers. -/
def starSorted : List (Fin 3 → Nat) := [![3, 0, 2], ![0, 3, 4], ![0, 1, 2], ![1, 0, 4], ![5, 2, 1]]

set_option maxRecDepth 20000 in
theorem star_mesh : PlaneMesh starPoints star := by
  refine ⟨?_, by decide +kernel, sides_of_check (by decide +kernel), fans_of_check (by decide +kernel)⟩
  apply Mesh.of_check <;> decide +kernel

/-- Non-vacuity of C168: a mesh with an inner vertex; the circulator around it visits four elements, the one around a boundary vertex three. -/
example : PlaneMesh starPoints star ∧ starSorted.Perm (star.map (oriented starPoints)) ∧
    let T := ofTds (buildTds scheme2 starSorted (createElements scheme2 starSorted).st.fmap)
    incidentFaces T starSorted 0 = some [3, 2, 0, 1] ∧ (incidentFaces T starSorted 2).map List.length = some 5 ∧
    ((incidentFaces T starSorted 2).map fun l => l.filter (· < 5)) = some [4, 0, 2] := by
  refine ⟨star_mesh, by decide +kernel, by decide +kernel, by decide +kernel, by decide +kernel⟩

/-! ## C169 -/

/-- A planar mesh of a connected domain: triangles that are not degenerate, two triangles lie on different sides of a line, no edge in more than two triangles, two
triangles with a common edge lie on different sides of it, all triangles are connected through edges. -/
structure DomainMesh (p : Nat → V2 K) (L : List (Fin 3 → Nat)) : Prop where
  simplices : ∀ v ∈ L, Function.Injective v
  conforming : ∀ F, mult L F ≤ 2
  nondeg : ∀ v ∈ L, (p (v 0)).orient (p (v 1)) (p (v 2)) ≠ 0
  sides : L.Pairwise fun v v' => ∀ i i' a b, a ≠ b → facetOf v i = {a, b} → facetOf v' i' = {a, b} →
    (p a).orient (p b) (p (v i)) * (p a).orient (p b) (p (v' i')) < 0
  separated : L.Pairwise fun v v' => ∃ a b, p a ≠ p b ∧ (∀ i, 0 ≤ (p a).orient (p b) (p (v i))) ∧ ∀ i, (p a).orient (p b) (p (v' i)) ≤ 0
  connected : ∀ v ∈ L, ∀ v' ∈ L, Relation.ReflTransGen (fun w w' => w' ∈ L ∧ ∃ i i', facetOf w i = facetOf w' i') v v'

/-- `std::sort` by the sum of the first coordinates (explicitgridfactory.hh:391-403). -/
def SortedByCenter (p : Nat → V2 K) (E : List (Fin 3 → Nat)) : Prop :=
  E.Pairwise fun v v' => (p (v 0)).x + (p (v 1)).x + (p (v 2)).x ≤ (p (v' 0)).x + (p (v' 1)).x + (p (v' 2)).x

/-- The order of `std::map<std::set<unsigned int>, …>`: sets of two numbers are compared lexicographically. -/
def InMapOrder (order : List (Finset Nat × Slot 2)) : Prop :=
  ∃ keys : List ((Nat × Nat) × Slot 2), order = keys.map (fun k => ({k.1.1, k.1.2}, k.2)) ∧ (∀ k ∈ keys, k.1.1 < k.1.2) ∧
    keys.Pairwise fun k k' => k.1.1 < k'.1.1 ∨ k.1.1 = k'.1.1 ∧ k.1.2 < k'.1.2

/-- A domain with a triangular hole (vertices 0, 2, 4) that touches the outer boundary in vertex 0. -/
def touchPoints : Nat → V2 ℚ := fun n => ([⟨0, 0⟩, ⟨-1, -1⟩, ⟨-1, 1⟩, ⟨1, -1⟩, ⟨1, 1⟩, ⟨-3, 3⟩, ⟨3, 3⟩] : List (V2 ℚ)).getD n ⟨0, 0⟩

/-- The element left of vertex 0 starts with vertex 0. -/
def touchA : List (Fin 3 → Nat) := [![0, 1, 2], ![3, 4, 0], ![1, 2, 5], ![2, 6, 5], ![2, 4, 6], ![4, 3, 6]]

/-- The same mesh with the vertices of the first element in another order. -/
def touchB : List (Fin 3 → Nat) := [![1, 2, 0], ![3, 4, 0], ![1, 2, 5], ![2, 6, 5], ![2, 4, 6], ![4, 3, 6]]

def touchASorted : List (Fin 3 → Nat) := [![1, 2, 5], ![1, 0, 2], ![2, 6, 5], ![3, 4, 0], ![2, 4, 6], ![4, 3, 6]]

def touchBSorted : List (Fin 3 → Nat) := [![1, 2, 5], ![2, 1, 0], ![2, 6, 5], ![3, 4, 0], ![2, 4, 6], ![4, 3, 6]]

/-- A finite check of connectedness, if all elements are at most three steps away from one of them. -/
theorem connected_of_check {L : List (Fin 3 → Nat)} (hub : Fin 3 → Nat) (hh : hub ∈ L) (h : ∀ v ∈ L, ∃ w ∈ L, ∃ w' ∈ L, (∃ i i', facetOf v i = facetOf w i') ∧
    (∃ i i', facetOf w i = facetOf w' i') ∧ ∃ i i', facetOf w' i = facetOf hub i') :
    ∀ v ∈ L, ∀ v' ∈ L, Relation.ReflTransGen (fun w w' => w' ∈ L ∧ ∃ i i', facetOf w i = facetOf w' i') v v' := by
  intro v hv v' hv'
  obtain ⟨w, hw, w', hw', h1, h2, h3⟩ := h v hv
  obtain ⟨x, hx, x', hx', g1, g2, g3⟩ := h v' hv'
  have sym : ∀ {a b : Fin 3 → Nat}, (∃ i i', facetOf a i = facetOf b i') → ∃ i i', facetOf b i = facetOf a i' := fun ⟨i, i', e⟩ => ⟨i', i, e.symm⟩
  exact (((((Relation.ReflTransGen.single ⟨hw, h1⟩).tail ⟨hw', h2⟩).tail ⟨hh, h3⟩).tail ⟨hx', sym g3⟩).tail ⟨hx, sym g2⟩).tail ⟨hv', sym g1⟩

theorem conforming_of_check {L : List (Fin 3 → Nat)} (h : ∀ F ∈ allFacets L, mult L F ≤ 2) : ∀ F, mult L F ≤ 2 := by
  intro F
  by_cases h0 : 0 < mult L F
  · exact h F (mem_allFacets h0)
  · omega

theorem separated_of_check {p : Nat → V2 ℚ} {L : List (Fin 3 → Nat)} (h : L.Pairwise fun v v' => ∃ a ∈ List.range 7, ∃ b ∈ List.range 7,
    ¬ ((p a).x = (p b).x ∧ (p a).y = (p b).y) ∧ (∀ i, 0 ≤ (p a).orient (p b) (p (v i))) ∧ ∀ i, (p a).orient (p b) (p (v' i)) ≤ 0) :
    L.Pairwise fun v v' => ∃ a b, p a ≠ p b ∧ (∀ i, 0 ≤ (p a).orient (p b) (p (v i))) ∧ ∀ i, (p a).orient (p b) (p (v' i)) ≤ 0 := by
  refine h.imp ?_
  rintro v v' ⟨a, -, b, -, hne, h1, h2⟩
  exact ⟨a, b, fun e => hne (by rw [e]; exact ⟨rfl, rfl⟩), h1, h2⟩

set_option maxRecDepth 20000 in
theorem touchA_mesh : DomainMesh touchPoints touchA :=
  ⟨by decide +kernel, conforming_of_check (by decide +kernel), by decide +kernel, sides_of_check (by decide +kernel), separated_of_check (by decide +kernel),
    connected_of_check ![2, 6, 5] (by decide +kernel) (by decide +kernel)⟩

set_option maxRecDepth 20000 in
theorem touchB_mesh : DomainMesh touchPoints touchB :=
  ⟨by decide +kernel, conforming_of_check (by decide +kernel), by decide +kernel, sides_of_check (by decide +kernel), separated_of_check (by decide +kernel),
    connected_of_check ![2, 6, 5] (by decide +kernel) (by decide +kernel)⟩

def keysA : List ((Nat × Nat) × Slot 2) :=
  [((0, 1), (1, 2)), ((0, 2), (1, 0)), ((0, 3), (3, 1)), ((0, 4), (3, 0)), ((1, 5), (0, 1)), ((2, 4), (4, 2)), ((3, 6), (5, 0)), ((5, 6), (2, 0))]

def keysB : List ((Nat × Nat) × Slot 2) :=
  [((0, 1), (1, 0)), ((0, 2), (1, 1)), ((0, 3), (3, 1)), ((0, 4), (3, 0)), ((1, 5), (0, 1)), ((2, 4), (4, 2)), ((3, 6), (5, 0)), ((5, 6), (2, 0))]

def orderOf (keys : List ((Nat × Nat) × Slot 2)) : List (Finset Nat × Slot 2) := keys.map fun k => ({k.1.1, k.1.2}, k.2)

/-- C169 is false: for a domain with a hole that touches the outer boundary in a vertex, `createGrid` throws that an inserted element was not found. -/
theorem C169_created_false : ¬ ∀ (p : Nat → V2 ℚ) (L E : List (Fin 3 → Nat)) (order : List (Finset Nat × Slot 2)), DomainMesh p L →
    E.Perm (L.map (oriented p)) → SortedByCenter p E → order.Perm (createElements scheme2 E).st.fmap → InMapOrder order →
    createGrid L E order = .grid (ofTds (buildTds scheme2 E order)) := by
  intro h
  have h1 := h touchPoints touchA touchASorted (orderOf keysA) touchA_mesh (by decide +kernel) (by unfold SortedByCenter; decide +kernel) (by decide +kernel)
    ⟨keysA, rfl, by decide +kernel, by decide +kernel⟩
  unfold createGrid at h1
  have h2 : checkAll (ofTds (buildTds scheme2 touchASorted (orderOf keysA))) touchASorted touchA = some false := by decide +kernel
  simp only [h2] at h1
  exact absurd h1 (by simp)

/-- C169 is false: if the vertices of the elements are given in another order, the grid of the same domain is created, but `incidentElements` of the vertex in
which the boundary touches itself leaves out an element with this vertex. -/
theorem C169_elements_false : ¬ ∀ (p : Nat → V2 ℚ) (L E : List (Fin 3 → Nat)) (order : List (Finset Nat × Slot 2)), DomainMesh p L →
    E.Perm (L.map (oriented p)) → SortedByCenter p E → order.Perm (createElements scheme2 E).st.fmap → InMapOrder order →
    createGrid L E order = .grid (ofTds (buildTds scheme2 E order)) →
    ∀ u, (∃ v ∈ L, ∃ i, v i = u) → ∃ circ l, incidentFaces (ofTds (buildTds scheme2 E order)) E u = some circ ∧
      Incident.incidentElements ⟨ofTds (buildTds scheme2 E order), fun _ => false, []⟩ circ circ = some l ∧
      ∀ h, h ∈ l ↔ ∃ v, E[h]? = some v ∧ ∃ i, v i = u := by
  intro h
  have h2 : checkAll (ofTds (buildTds scheme2 touchBSorted (orderOf keysB))) touchBSorted touchB = some true := by decide +kernel
  obtain ⟨circ, l, e1, e2, e3⟩ := h touchPoints touchB touchBSorted (orderOf keysB) touchB_mesh (by decide +kernel) (by unfold SortedByCenter; decide +kernel)
    (by decide +kernel) ⟨keysB, rfl, by decide +kernel, by decide +kernel⟩ (by unfold createGrid; simp only [h2]) 0 ⟨![1, 2, 0], by decide, 2, rfl⟩
  have hc : incidentFaces (ofTds (buildTds scheme2 touchBSorted (orderOf keysB))) touchBSorted 0 = some [3, 9, 8] := by decide +kernel
  obtain rfl : circ = [3, 9, 8] := Option.some.inj (e1.symm.trans hc)
  have hl : Incident.incidentElements ⟨ofTds (buildTds scheme2 touchBSorted (orderOf keysB)), fun _ => false, []⟩ [3, 9, 8] [3, 9, 8] = some [3] := by decide +kernel
  obtain rfl : l = [3] := Option.some.inj (e2.symm.trans hl)
  have := (e3 1).2 ⟨![2, 1, 0], rfl, 2, rfl⟩
  simp at this

end Verif.Circulate
