import Verif.Factory.Conn2
import Verif.Normals.Props
import Mathlib.Logic.Equiv.Basic

/-!
# C13, C14: connectivity and orientation of the created grid

A mesh is the list `L` of inserted elements (vertex numbers). `facetOf v i` is the facet opposite to vertex `i`.
In the created grid the infinite vertex is `none`; an element is infinite if it has that vertex.
-/

namespace Verif.Factory

variable {d : Nat}

/-- How many inserted elements have the facet `F`. -/
def mult (L : List (Fin (d + 1) → Nat)) (F : Finset Nat) : Nat :=
  L.countP fun v => decide (∃ i, facetOf v i = F)

/-- What the factory expects: elements with distinct vertices, no facet in more than two elements, and a boundary
(the facets of one element only) in which no ridge belongs to more than two facets. -/
structure Mesh (L : List (Fin (d + 1) → Nat)) : Prop where
  simplices : ∀ v ∈ L, Function.Injective v
  conforming : ∀ F, mult L F ≤ 2
  manifold : ∀ R F1 F2 F3, mult L F1 = 1 → mult L F2 = 1 → mult L F3 = 1 →
    IsRidge R F1 → IsRidge R F2 → IsRidge R F3 → F1 = F2 ∨ F1 = F3 ∨ F2 = F3

/-! ### counting and indices -/

theorem split_at {α : Type*} {l : List α} {h : Nat} {a : α} (ha : l[h]? = some a) :
    l = l.take h ++ a :: l.drop (h + 1) := by
  obtain ⟨hlt, rfl⟩ := List.getElem?_eq_some_iff.1 ha
  rw [List.getElem_cons_drop, List.take_append_drop]

theorem countP_split {α : Type*} {l : List α} {h : Nat} {a : α} (p : α → Bool) (ha : l[h]? = some a) (hp : p a = true) :
    l.countP p = (l.take h).countP p + 1 + (l.drop (h + 1)).countP p := by
  conv_lhs => rw [split_at ha]
  rw [List.countP_append, List.countP_cons_of_pos hp]
  omega

theorem three_le {α : Type*} {l : List α} (p : α → Bool) {h1 h2 h3 : Nat} {a b c : α} (h12 : h1 < h2) (h23 : h2 < h3)
    (ha : l[h1]? = some a) (hb : l[h2]? = some b) (hc : l[h3]? = some c) (pa : p a) (pb : p b) (pc : p c) :
    3 ≤ l.countP p := by
  rw [countP_split p hb pb]
  have e1 : 0 < (l.take h2).countP p := List.countP_pos_iff.2 ⟨a, by
    apply List.mem_of_getElem? (i := h1)
    rw [List.getElem?_take_of_lt h12]; exact ha, pa⟩
  have e2 : 0 < (l.drop (h2 + 1)).countP p := List.countP_pos_iff.2 ⟨c, by
    apply List.mem_of_getElem? (i := h3 - (h2 + 1))
    rw [List.getElem?_drop, show h2 + 1 + (h3 - (h2 + 1)) = h3 by omega]; exact hc, pc⟩
  omega

theorem hasFacet_iff (E : List (Fin (d + 1) → Nat)) (h : Nat) (F : Finset Nat) :
    HasFacet E h F ↔ ∃ v, E[h]? = some v ∧ decide (∃ i, facetOf v i = F) = true := by
  unfold HasFacet
  constructor
  · rintro ⟨v, i, hv, hi⟩; exact ⟨v, hv, by simpa using ⟨i, hi⟩⟩
  · rintro ⟨v, hv, hi⟩
    obtain ⟨i, hi⟩ := by simpa using hi
    exact ⟨v, i, hv, hi⟩

theorem conforming_of_mult {E : List (Fin (d + 1) → Nat)} (h : ∀ F, mult E F ≤ 2) : Conforming E := by
  intro F h1 h2 h3 H1 H2 H3
  rw [hasFacet_iff] at H1 H2 H3
  obtain ⟨a, ha, pa⟩ := H1
  obtain ⟨b, hb, pb⟩ := H2
  obtain ⟨c, hc, pc⟩ := H3
  by_contra hne
  simp only [not_or] at hne
  obtain ⟨n12, n13, n23⟩ := hne
  have hF := h F
  unfold mult at hF
  have key : 3 ≤ E.countP fun v => decide (∃ i, facetOf v i = F) := by
    rcases Nat.lt_or_gt_of_ne n12 with l12 | l12 <;> rcases Nat.lt_or_gt_of_ne n13 with l13 | l13 <;>
      rcases Nat.lt_or_gt_of_ne n23 with l23 | l23
    · exact three_le _ l12 l23 ha hb hc pa pb pc
    · exact three_le _ l13 l23 ha hc hb pa pc pb
    · omega
    · exact three_le _ l13 l12 hc ha hb pc pa pb
    · exact three_le _ l12 l13 hb ha hc pb pa pc
    · omega
    · exact three_le _ l23 l13 hb hc ha pb pc pa
    · exact three_le _ l23 l12 hc hb ha pc pb pa
  omega

theorem isBoundary_iff (E : List (Fin (d + 1) → Nat)) (F : Finset Nat) : IsBoundary E F ↔ mult E F = 1 := by
  constructor
  · rintro ⟨h, hh, hu⟩
    obtain ⟨v, hv, pv⟩ := (hasFacet_iff E h F).1 hh
    unfold mult
    rw [countP_split _ hv pv]
    have e1 : (E.take h).countP (fun v => decide (∃ i, facetOf v i = F)) = 0 := by
      rw [List.countP_eq_zero]
      intro w hw pw
      obtain ⟨j, hj⟩ := List.mem_iff_getElem?.1 hw
      have hlt : j < h := by
        have := (List.getElem?_eq_some_iff.1 hj).1
        rw [List.length_take] at this; omega
      rw [List.getElem?_take_of_lt hlt] at hj
      have := hu j ((hasFacet_iff E j F).2 ⟨w, hj, pw⟩)
      omega
    have e2 : (E.drop (h + 1)).countP (fun v => decide (∃ i, facetOf v i = F)) = 0 := by
      rw [List.countP_eq_zero]
      intro w hw pw
      obtain ⟨j, hj⟩ := List.mem_iff_getElem?.1 hw
      rw [List.getElem?_drop] at hj
      have := hu (h + 1 + j) ((hasFacet_iff E _ F).2 ⟨w, hj, pw⟩)
      omega
    omega
  · intro h1
    have hpos : 0 < E.countP fun v => decide (∃ i, facetOf v i = F) := by unfold mult at h1; omega
    obtain ⟨v, hv, pv⟩ := List.countP_pos_iff.1 hpos
    obtain ⟨h, hh⟩ := List.mem_iff_getElem?.1 hv
    refine ⟨h, (hasFacet_iff E h F).2 ⟨v, hh, pv⟩, ?_⟩
    intro h' hh'
    obtain ⟨w, hw, pw⟩ := (hasFacet_iff E h' F).1 hh'
    by_contra hne
    unfold mult at h1
    rw [countP_split _ hh pv] at h1
    rcases Nat.lt_or_gt_of_ne hne with hlt | hlt
    · have : 0 < (E.take h).countP (fun v => decide (∃ i, facetOf v i = F)) := List.countP_pos_iff.2 ⟨w, by
        apply List.mem_of_getElem? (i := h')
        rw [List.getElem?_take_of_lt hlt]; exact hw, pw⟩
      omega
    · have : 0 < (E.drop (h + 1)).countP (fun v => decide (∃ i, facetOf v i = F)) := List.countP_pos_iff.2 ⟨w, by
        apply List.mem_of_getElem? (i := h' - (h + 1))
        rw [List.getElem?_drop, show h + 1 + (h' - (h + 1)) = h' by omega]; exact hw, pw⟩
      omega

/-- The mesh conditions do not depend on the order of the elements nor on the order of the vertices in an
element. -/
theorem Mesh.of_perm {L E : List (Fin (d + 1) → Nat)} {f : (Fin (d + 1) → Nat) → (Fin (d + 1) → Nat)} (hL : Mesh L)
    (hp : E.Perm (L.map f)) (hf : ∀ v, ∃ σ : Equiv.Perm (Fin (d + 1)), f v = v ∘ σ) : Mesh E := by
  have hfac : ∀ v F, (∃ i, facetOf (f v) i = F) ↔ ∃ i, facetOf v i = F := by
    intro v F
    obtain ⟨σ, hσ⟩ := hf v
    have e : ∀ i, facetOf (v ∘ σ) i = facetOf v (σ i) := by
      intro i
      unfold facetOf
      rw [← Finset.image_image, Finset.image_erase σ.injective, Finset.image_univ_of_surjective σ.surjective]
    rw [hσ]
    constructor
    · rintro ⟨i, hi⟩; exact ⟨σ i, by rw [← e]; exact hi⟩
    · rintro ⟨i, hi⟩; exact ⟨σ.symm i, by rw [e, Equiv.apply_symm_apply]; exact hi⟩
  have hm : ∀ F, mult E F = mult L F := by
    intro F
    unfold mult
    rw [hp.countP_eq, List.countP_map]
    congr 1
    funext v
    simp only [Function.comp, hfac]
  refine ⟨?_, fun F => by rw [hm]; exact hL.conforming F, ?_⟩
  · intro v hv
    obtain ⟨w, hw, rfl⟩ := List.mem_map.1 (hp.mem_iff.1 hv)
    obtain ⟨σ, hσ⟩ := hf w
    rw [hσ]
    exact (hL.simplices w hw).comp σ.injective
  · intro R F1 F2 F3 h1 h2 h3
    rw [hm] at h1 h2 h3
    exact hL.manifold R F1 F2 F3 h1 h2 h3

theorem Mesh.parts {E : List (Fin (d + 1) → Nat)} (h : Mesh E) : Simplices E ∧ Conforming E ∧ BoundaryManifold E := by
  refine ⟨h.simplices, conforming_of_mult h.conforming, ?_⟩
  intro R F1 F2 F3 h1 h2 h3
  rw [isBoundary_iff] at h1 h2 h3
  exact h.manifold R F1 F2 F3 h1 h2 h3

/-! ### the statements, for every dimension -/

theorem cells_desc {S : Scheme d} (hS : S.Valid) {E : List (Fin (d + 1) → Nat)} (hE : Mesh E)
    (order : List (Finset Nat × Slot d)) (ho : order.Perm (createElements S E).st.fmap) :
    (buildTds S E order).cells = E.map (fun v i => some (v i)) ++ order.map (infCell S E) ∧
    ∀ e ∈ order, ∃ v, E[e.2.1]? = some v ∧ infCell S E e = Fin.snoc (α := fun _ => Option Nat) (fun i => some (S.inf v e.2.2 i)) none := by
  obtain ⟨h1, h2, h3⟩ := hE.parts
  have hmem : ∀ e ∈ order, ∃ v, E[e.2.1]? = some v := by
    rintro ⟨k, s⟩ he
    obtain ⟨v, hv, -⟩ := (mem_fmap hS h1 h2 k s).1 (ho.mem_iff.1 he)
    exact ⟨v, hv⟩
  obtain ⟨c1, -⟩ := createInfinite_aux S E order (fun e he => by
    obtain ⟨v, hv⟩ := hmem e he
    exact (List.getElem?_eq_some_iff.1 hv).1) { createElements S E with st := { (createElements S E).st with fmap := [] } }
  refine ⟨?_, ?_⟩
  · rw [show (buildTds S E order).cells = _ from c1]
    rw [(createElements_good hS h1 h2).1]
  · intro e he
    obtain ⟨v, hv⟩ := hmem e he
    exact ⟨v, hv, by simp only [infCell, hv]⟩

/-- Each inserted element exists once, followed by infinite elements only. -/
theorem elements_exist {S : Scheme d} (hS : S.Valid) {E : List (Fin (d + 1) → Nat)} (hE : Mesh E)
    (order : List (Finset Nat × Slot d)) (ho : order.Perm (createElements S E).st.fmap) :
    ∃ inf, (buildTds S E order).cells = E.map (fun v i => some (v i)) ++ inf ∧
      ∀ c ∈ inf, c (Fin.last d) = none ∧ ∀ i, i ≠ Fin.last d → c i ≠ none := by
  obtain ⟨h1, h2⟩ := cells_desc hS hE order ho
  refine ⟨_, h1, ?_⟩
  intro c hc
  obtain ⟨e, he, rfl⟩ := List.mem_map.1 hc
  obtain ⟨v, -, hcell⟩ := h2 e he
  rw [hcell]
  refine ⟨by rw [Fin.snoc_last], ?_⟩
  intro i hi
  induction i using Fin.lastCases with
  | last => exact absurd rfl hi
  | cast j => rw [Fin.snoc_castSucc]; simp

/-- A facet of one element only is a boundary facet: its neighbour is exactly one infinite element, which lists
this element as its neighbour. A facet of two elements has a finite neighbour. -/
theorem boundary_facets {S : Scheme d} (hS : S.Valid) {E : List (Fin (d + 1) → Nat)} (hE : Mesh E)
    (order : List (Finset Nat × Slot d)) (ho : order.Perm (createElements S E).st.fmap) (h : Nat) (v)
    (hv : E[h]? = some v) (i : Fin (d + 1)) :
    (mult E (facetOf v i) = 1 → ∃ c cell, (buildTds S E order).st.nbr (h, i) = some c ∧
      (buildTds S E order).cells[c]? = some cell ∧ cell (Fin.last d) = none ∧
      (buildTds S E order).st.nbr (c, Fin.last d) = some h ∧
      facetOf cell (Fin.last d) = (facetOf v i).image some) ∧
    (mult E (facetOf v i) = 2 → ∃ h' v', (buildTds S E order).st.nbr (h, i) = some h' ∧ h' ≠ h ∧ E[h']? = some v' ∧
      ∃ i', facetOf v' i' = facetOf v i) := by
  obtain ⟨h1, h2, h3⟩ := hE.parts
  obtain ⟨hcells, hinf⟩ := cells_desc hS hE order ho
  have hlt := (List.getElem?_eq_some_iff.1 hv).1
  have hfin : (buildTds S E order).cells[h]? = some (fun i => some (v i)) := by
    rw [hcells, List.getElem?_append_left (by simpa using hlt), List.getElem?_map, hv]; rfl
  have hcon := connectivity hS h1 h2 h3 order ho h i _ hfin
  constructor
  · intro hb
    obtain ⟨h0, hh0, hu0⟩ := (isBoundary_iff E _).2 hb
    have hself : HasFacet E h (facetOf v i) := ⟨v, i, hv, rfl⟩
    have hu : ∀ h', HasFacet E h' (facetOf v i) → h' = h := fun h' hh' => (hu0 h' hh').trans (hu0 h hself).symm
    have hin : (facetOf v i, (h, i)) ∈ order := ho.mem_iff.2 ((mem_fmap hS h1 h2 _ _).2 ⟨v, hv, rfl, hu⟩)
    obtain ⟨q, hq⟩ := List.mem_iff_getElem?.1 hin
    obtain ⟨v', hv', hcell⟩ := hinf _ hin
    simp only at hv' hcell
    rw [hv] at hv'
    cases hv'
    have hc : (buildTds S E order).cells[E.length + q]? = some (infCell S E (facetOf v i, (h, i))) := by
      rw [hcells, List.getElem?_append_right (by simp), List.getElem?_map, List.length_map, Nat.add_sub_cancel_left, hq]
      rfl
    have hfacet : facetOf (infCell S E (facetOf v i, (h, i))) (Fin.last d) = (facetOf v i).image some := by
      rw [hcell, facetOf_snoc_last, hS.infImage]
    refine ⟨E.length + q, _, ?_, hc, by rw [hcell, Fin.snoc_last], ?_, hfacet⟩
    · rw [hcon]
      refine ⟨by omega, _, Fin.last d, hc, ?_⟩
      rw [hfacet, facetOf_some]
    · rw [connectivity hS h1 h2 h3 order ho _ (Fin.last d) _ hc]
      refine ⟨by omega, _, i, hfin, ?_⟩
      rw [hfacet, facetOf_some]
  · intro htwo
    -- a second element has the facet
    have hex : ∃ h', h' ≠ h ∧ HasFacet E h' (facetOf v i) := by
      by_contra hno
      have : IsBoundary E (facetOf v i) := by
        refine ⟨h, ⟨v, i, hv, rfl⟩, fun h' hh' => ?_⟩
        by_contra hne
        exact hno ⟨h', hne, hh'⟩
      rw [isBoundary_iff] at this
      omega
    obtain ⟨h', hne, v', i', hv', hf⟩ := hex
    refine ⟨h', v', ?_, hne, hv', i', hf⟩
    rw [hcon]
    refine ⟨hne, fun i => some (v' i), i', ?_, by rw [facetOf_some, facetOf_some, hf]⟩
    rw [hcells, List.getElem?_append_left (by simpa using (List.getElem?_eq_some_iff.1 hv').1), List.getElem?_map, hv']
    rfl

/-! ### C13 -/

section
variable {K : Type*} [Field K] [LinearOrder K] [IsStrictOrderedRing K]

theorem orient2_perm (x y : Nat → K) (v : Fin 3 → Nat) : ∃ σ : Equiv.Perm (Fin 3), orient2 x y v = v ∘ σ := by
  unfold orient2
  simp only
  split
  · refine ⟨Equiv.swap 0 1, ?_⟩
    funext i
    have hi : ∀ j : Fin 3, j = 0 ∨ j = 1 ∨ j = 2 := by decide
    rcases hi i with rfl | rfl | rfl
    · simp
    · simp
    · have : (Equiv.swap (0 : Fin 3) 1) 2 = 2 := by decide
      simp [this]
  · exact ⟨1, rfl⟩

/-- **C13** 2D. `L` are the inserted elements, `E` the elements in the order of creation (sorted in any way, with
vertices swapped by orientation), `order` the order in which the remaining facets are visited. Two elements are
neighbours through a facet exactly when they are different and both have it - for finite and infinite elements
alike; in particular neighbourship is symmetric. -/
theorem C13_neighbours_2d (x y : Nat → K) (L E : List (Fin 3 → Nat)) (hL : Mesh L) (hE : E.Perm (L.map (orient2 x y)))
    (order : List (Finset Nat × Slot 2)) (ho : order.Perm (createElements scheme2 E).st.fmap)
    (c : Nat) (i : Fin 3) (cell) (hcell : (buildTds scheme2 E order).cells[c]? = some cell) (c' : Nat) :
    (buildTds scheme2 E order).st.nbr (c, i) = some c' ↔
      c' ≠ c ∧ ∃ cell' i', (buildTds scheme2 E order).cells[c']? = some cell' ∧ facetOf cell' i' = facetOf cell i := by
  obtain ⟨h1, h2, h3⟩ := (hL.of_perm hE (orient2_perm x y)).parts
  exact connectivity scheme2_valid h1 h2 h3 order ho c i cell hcell c'

/-- **C13** 2D: the elements of the created grid are the inserted ones (as vertex sets) and one infinite element
for each boundary facet. -/
theorem C13_boundary_2d (x y : Nat → K) (L E : List (Fin 3 → Nat)) (hL : Mesh L) (hE : E.Perm (L.map (orient2 x y)))
    (order : List (Finset Nat × Slot 2)) (ho : order.Perm (createElements scheme2 E).st.fmap) :
    (∃ inf, (buildTds scheme2 E order).cells = E.map (fun v i => some (v i)) ++ inf ∧
      ∀ c ∈ inf, c (Fin.last 2) = none ∧ ∀ i, i ≠ Fin.last 2 → c i ≠ none) ∧
    ∀ h v, E[h]? = some v → ∀ i,
    (mult L (facetOf v i) = 1 → ∃ c cell, (buildTds scheme2 E order).st.nbr (h, i) = some c ∧
      (buildTds scheme2 E order).cells[c]? = some cell ∧ cell (Fin.last 2) = none ∧
      (buildTds scheme2 E order).st.nbr (c, Fin.last 2) = some h ∧
      facetOf cell (Fin.last 2) = (facetOf v i).image some) ∧
    (mult L (facetOf v i) = 2 → ∃ h' v', (buildTds scheme2 E order).st.nbr (h, i) = some h' ∧ h' ≠ h ∧
      E[h']? = some v' ∧ ∃ i', facetOf v' i' = facetOf v i) := by
  have hm := hL.of_perm hE (orient2_perm x y)
  refine ⟨elements_exist scheme2_valid hm order ho, ?_⟩
  intro h v hv i
  have hmult : mult L (facetOf v i) = mult E (facetOf v i) := by
    unfold mult
    rw [hE.countP_eq, List.countP_map]
    congr 1
    funext w
    simp only [Function.comp]
    obtain ⟨σ, hσ⟩ := orient2_perm x y w
    have e : ∀ j, facetOf (w ∘ σ) j = facetOf w (σ j) := by
      intro j
      unfold facetOf
      rw [← Finset.image_image, Finset.image_erase σ.injective, Finset.image_univ_of_surjective σ.surjective]
    rw [hσ]
    congr 1
    apply propext
    constructor
    · rintro ⟨j, hj⟩; exact ⟨σ.symm j, by rw [e, Equiv.apply_symm_apply]; exact hj⟩
    · rintro ⟨j, hj⟩; exact ⟨σ j, by rw [← e]; exact hj⟩
  rw [hmult]
  exact boundary_facets scheme2_valid hm order ho h v hv i

/-- **C13** 3D (the vertices are used as given). -/
theorem C13_neighbours_3d (L E : List (Fin 4 → Nat)) (hL : Mesh L) (hE : E.Perm (L.map orient3))
    (order : List (Finset Nat × Slot 3)) (ho : order.Perm (createElements scheme3 E).st.fmap)
    (c : Nat) (i : Fin 4) (cell) (hcell : (buildTds scheme3 E order).cells[c]? = some cell) (c' : Nat) :
    (buildTds scheme3 E order).st.nbr (c, i) = some c' ↔
      c' ≠ c ∧ ∃ cell' i', (buildTds scheme3 E order).cells[c']? = some cell' ∧ facetOf cell' i' = facetOf cell i := by
  obtain ⟨h1, h2, h3⟩ := (hL.of_perm hE (fun v => ⟨1, rfl⟩)).parts
  exact connectivity scheme3_valid h1 h2 h3 order ho c i cell hcell c'

/-- **C13** 3D. -/
theorem C13_boundary_3d (L E : List (Fin 4 → Nat)) (hL : Mesh L) (hE : E.Perm (L.map orient3))
    (order : List (Finset Nat × Slot 3)) (ho : order.Perm (createElements scheme3 E).st.fmap) :
    (∃ inf, (buildTds scheme3 E order).cells = E.map (fun v i => some (v i)) ++ inf ∧
      ∀ c ∈ inf, c (Fin.last 3) = none ∧ ∀ i, i ≠ Fin.last 3 → c i ≠ none) ∧
    ∀ h v, E[h]? = some v → ∀ i,
    (mult L (facetOf v i) = 1 → ∃ c cell, (buildTds scheme3 E order).st.nbr (h, i) = some c ∧
      (buildTds scheme3 E order).cells[c]? = some cell ∧ cell (Fin.last 3) = none ∧
      (buildTds scheme3 E order).st.nbr (c, Fin.last 3) = some h ∧
      facetOf cell (Fin.last 3) = (facetOf v i).image some) ∧
    (mult L (facetOf v i) = 2 → ∃ h' v', (buildTds scheme3 E order).st.nbr (h, i) = some h' ∧ h' ≠ h ∧
      E[h']? = some v' ∧ ∃ i', facetOf v' i' = facetOf v i) := by
  have hm := hL.of_perm hE (fun v => ⟨1, rfl⟩)
  refine ⟨elements_exist scheme3_valid hm order ho, ?_⟩
  intro h v hv i
  have hmult : mult L (facetOf v i) = mult E (facetOf v i) := by
    unfold mult
    rw [hE.countP_eq, List.countP_map]
    rfl
  rw [hmult]
  exact boundary_facets scheme3_valid hm order ho h v hv i

open Normals in
/-- **C13** The infinite element of a boundary facet has the orientation CGAL requires: with its infinite vertex
replaced by any point strictly beyond the facet it is positively oriented (2D). -/
theorem C13_infinite_orientation_2d (p : Nat → V2 K) (v : Fin 3 → Nat) (fi : Fin 3) (q : V2 K)
    (hq : 0 < (bulkNormal2 (p ∘ v) fi).dot (q.sub (p (v (fi + 1))))) :
    0 < (p (scheme2.inf v fi 0)).orient (p (scheme2.inf v fi 1)) q := by
  simp only [scheme2, bulkNormal2, V2.dot, V2.sub, Function.comp, V2.orient] at *
  simp only [Matrix.cons_val_zero, Matrix.cons_val_one]
  linarith

open Normals in
/-- **C13** Same in 3D. -/
theorem C13_infinite_orientation_3d (p : Nat → V3 K) (v : Fin 4 → Nat) (fi : Fin 4) (q : V3 K)
    (hq : 0 < (bulkNormal3 (p ∘ v) fi).dot (q.sub (p (v (fi + 1))))) :
    0 < (p (scheme3.inf v fi 0)).orient (p (scheme3.inf v fi 1)) (p (scheme3.inf v fi 2)) q := by
  unfold bulkNormal3 at hq
  by_cases h : fi.val % 2 = 0
  · have h' : ¬ fi.val % 2 = 1 := by omega
    simp only [scheme3, if_neg h', if_pos h, cgalNormal, V3.cross, V3.dot, V3.sub, Function.comp, V3.orient] at *
    simp only [Matrix.cons_val_zero, Matrix.cons_val_one, Matrix.cons_val]
    linarith
  · have h' : fi.val % 2 = 1 := by omega
    simp only [scheme3, if_pos h', if_neg h, cgalNormal, V3.cross, V3.dot, V3.sub, Function.comp, V3.orient] at *
    simp only [Matrix.cons_val_zero, Matrix.cons_val_one, Matrix.cons_val]
    linarith

/-! ### C14 -/

/-- **C14** 2D: whatever vertex order the caller used, the created element has the same vertices and is
positively oriented, unless its three points are collinear. -/
theorem C14_positive_2d (p : Nat → Normals.V2 K) (v : Fin 3 → Nat)
    (h : (p (v 0)).orient (p (v 1)) (p (v 2)) ≠ 0) :
    (∃ σ : Equiv.Perm (Fin 3), orient2 (fun i => (p i).x) (fun i => (p i).y) v = v ∘ σ) ∧
    Normals.Positive2 (fun i => p (orient2 (fun i => (p i).x) (fun i => (p i).y) v i)) := by
  refine ⟨orient2_perm _ _ v, ?_⟩
  unfold orient2 Normals.Positive2
  unfold Normals.V2.orient at *
  simp only
  split
  · rename_i hpos
    simp only [Matrix.cons_val_zero, Matrix.cons_val_one, Matrix.cons_val]
    linarith
  · rename_i hpos
    have hle := not_lt.1 hpos
    rcases lt_or_gt_of_ne h with hlt | hgt
    · exfalso; linarith
    · exact hgt

end

/-- Non-vacuity of `C14_positive_2d`: a clockwise triangle. -/
example : (⟨0, 0⟩ : Normals.V2 ℚ).orient ⟨0, 1⟩ ⟨1, 0⟩ ≠ 0 := by
  unfold Normals.V2.orient; norm_num

/-- **C102** is false in 3D: the tetrahedron (0,0,0), (0,1,0), (1,0,0), (0,0,1) is created with negative
orientation (by `C10_inward_if_negative` all its "outer" normals then point inwards). -/
theorem C102_false_3d :
    let p : Nat → Normals.V3 ℚ := fun n => ([⟨0, 0, 0⟩, ⟨0, 1, 0⟩, ⟨1, 0, 0⟩, ⟨0, 0, 1⟩] : List (Normals.V3 ℚ)).getD n ⟨0, 0, 0⟩
    let v : Fin 4 → Nat := fun i => i.val
    (p (orient3 v 0)).orient (p (orient3 v 1)) (p (orient3 v 2)) (p (orient3 v 3)) < 0 := by
  simp only [orient3]
  unfold Normals.V3.orient Normals.V3.cross Normals.V3.dot Normals.V3.sub
  norm_num [List.getD]

/-- **C102** (part) 3D: elements inserted with positive orientation keep it. Missing: the correction of the others. -/
theorem C102_positive_3d_partial {K : Type*} [Field K] [LinearOrder K] (p : Nat → Normals.V3 K) (v : Fin 4 → Nat)
    (h : Normals.Positive3 (fun i => p (v i))) : Normals.Positive3 (fun i => p (orient3 v i)) := h

/-! ### a concrete mesh -/

/-- Two triangles of the unit square. -/
def exMesh : List (Fin 3 → Nat) := [![0, 1, 2], ![3, 2, 1]]

/-- Non-vacuity of the C13 theorems: the two triangles form a mesh; they are neighbours through their common
edge, and there are four infinite elements. -/
example : ((buildTds scheme2 exMesh (createElements scheme2 exMesh).st.fmap).st.nbr (0, 0) = some 1) ∧
    ((buildTds scheme2 exMesh (createElements scheme2 exMesh).st.fmap).st.nbr (1, 0) = some 0) ∧
    (buildTds scheme2 exMesh (createElements scheme2 exMesh).st.fmap).cells.length = 6 := by
  decide

/-- All facets of a list of elements. -/
def allFacets (L : List (Fin (d + 1) → Nat)) : List (Finset Nat) :=
  L.flatMap fun v => (List.finRange (d + 1)).map (facetOf v)

theorem mem_allFacets {L : List (Fin (d + 1) → Nat)} {F : Finset Nat} (h : 0 < mult L F) : F ∈ allFacets L := by
  obtain ⟨v, hv, hp⟩ := List.countP_pos_iff.1 h
  obtain ⟨i, hi⟩ : ∃ i, facetOf v i = F := by simpa using hp
  exact List.mem_flatMap.2 ⟨v, hv, List.mem_map.2 ⟨i, List.mem_finRange i, hi⟩⟩

instance (R F : Finset Nat) : Decidable (IsRidge R F) := inferInstanceAs (Decidable (∃ x ∈ F, R = F.erase x))

/-- A finite check of the mesh conditions. -/
theorem Mesh.of_check {L : List (Fin (d + 1) → Nat)} (h1 : ∀ v ∈ L, Function.Injective v)
    (h2 : ∀ F ∈ allFacets L, mult L F ≤ 2)
    (h3 : ∀ F1 ∈ allFacets L, mult L F1 = 1 → ∀ x ∈ F1, ∀ F2 ∈ allFacets L, mult L F2 = 1 → IsRidge (F1.erase x) F2 →
      ∀ F3 ∈ allFacets L, mult L F3 = 1 → IsRidge (F1.erase x) F3 → F1 = F2 ∨ F1 = F3 ∨ F2 = F3) : Mesh L := by
  refine ⟨h1, ?_, ?_⟩
  · intro F
    by_cases h : 0 < mult L F
    · exact h2 F (mem_allFacets h)
    · omega
  · rintro R F1 F2 F3 m1 m2 m3 ⟨x, hx, rfl⟩ r2 r3
    exact h3 F1 (mem_allFacets (by omega)) m1 x hx F2 (mem_allFacets (by omega)) m2 r2 F3 (mem_allFacets (by omega)) m3 r3

/-- Non-vacuity of the C13 theorems. -/
theorem exMesh_mesh : Mesh exMesh := by
  apply Mesh.of_check <;> decide

/-- A 3D mesh: two tetrahedra with a common facet. -/
def exMesh3 : List (Fin 4 → Nat) := [![0, 1, 2, 3], ![4, 1, 3, 2]]

set_option maxRecDepth 10000 in
theorem exMesh3_mesh : Mesh exMesh3 := by
  apply Mesh.of_check <;> decide

end Verif.Factory
