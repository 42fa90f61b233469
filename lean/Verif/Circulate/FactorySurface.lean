import Verif.Circulate.Surface
import Mathlib.Data.Finset.Card

/-!
# The explicit factory builds a closed oriented surface

Lemmas.
-/

namespace Verif.Circulate

open Verif Tri Factory

/-- No two elements run through an edge in the same direction. -/
def Directed (E : List (Fin 3 → Nat)) : Prop :=
  ∀ (h h' : Nat) (v v' : Fin 3 → Nat) (i i' : Fin 3), E[h]? = some v → E[h']? = some v' → v i = v' i' → v (i + 1) = v' (i' + 1) → h = h'

/-- The slots of `E` with vertex `u`. -/
def slots (E : List (Fin 3 → Nat)) (u : Nat) : Finset (Fin E.length × Fin 3) := Finset.univ.filter fun a => E[a.1] a.2 = u

/-- The ends of the edges from `u` in the direction of the elements. -/
def outs (E : List (Fin 3 → Nat)) (u : Nat) : Finset Nat := (slots E u).image fun a => E[a.1] (a.2 + 1)

/-- The starts of the edges to `u` in the direction of the elements. -/
def ins (E : List (Fin 3 → Nat)) (u : Nat) : Finset Nat := (slots E u).image fun a => E[a.1] (a.2 + 2)

section
variable {E : List (Fin 3 → Nat)}

theorem mem_outs {u b : Nat} : b ∈ outs E u ↔ ∃ (h : Nat) (v : Fin 3 → Nat) (i : Fin 3), E[h]? = some v ∧ v i = u ∧ v (i + 1) = b := by
  unfold outs slots
  simp only [Finset.mem_image, Finset.mem_filter, Finset.mem_univ, true_and, Prod.exists]
  constructor
  · rintro ⟨h, i, h1, h2⟩
    exact ⟨h, E[h], i, List.getElem?_eq_getElem h.2, h1, h2⟩
  · rintro ⟨h, v, i, hv, h1, h2⟩
    obtain ⟨hlt, rfl⟩ := List.getElem?_eq_some_iff.1 hv
    exact ⟨⟨h, hlt⟩, i, h1, h2⟩

theorem mem_ins {u b : Nat} : b ∈ ins E u ↔ ∃ (h : Nat) (v : Fin 3 → Nat) (i : Fin 3), E[h]? = some v ∧ v i = u ∧ v (i + 2) = b := by
  unfold ins slots
  simp only [Finset.mem_image, Finset.mem_filter, Finset.mem_univ, true_and, Prod.exists]
  constructor
  · rintro ⟨h, i, h1, h2⟩
    exact ⟨h, E[h], i, List.getElem?_eq_getElem h.2, h1, h2⟩
  · rintro ⟨h, v, i, hv, h1, h2⟩
    obtain ⟨hlt, rfl⟩ := List.getElem?_eq_some_iff.1 hv
    exact ⟨⟨h, hlt⟩, i, h1, h2⟩

theorem card_outs_ins (hs : Simplices E) (hD : Directed E) (u : Nat) : (outs E u).card = (ins E u).card := by
  have inj : ∀ a : Fin E.length, Function.Injective E[a] := fun a => hs _ (List.getElem_mem _)
  have same : ∀ a b : Fin E.length × Fin 3, a ∈ slots E u → b ∈ slots E u → a.1 = b.1 → a = b := by
    rintro ⟨a, i⟩ ⟨b, j⟩ ha hb (rfl : a = b)
    simp only [slots, Finset.mem_filter, Finset.mem_univ, true_and] at ha hb
    rw [inj a (ha.trans hb.symm)]
  unfold outs ins
  rw [Finset.card_image_of_injOn, Finset.card_image_of_injOn]
  · intro a ha b hb e
    refine same a b ha hb (Fin.ext (hD a.1 b.1 _ _ (a.2 + 2) (b.2 + 2) (List.getElem?_eq_getElem a.1.2) (List.getElem?_eq_getElem b.1.2) e ?_))
    have h3 : ∀ i : Fin 3, i + 2 + 1 = i := by decide
    simp only [slots, Finset.coe_filter, Finset.mem_univ, true_and, Set.mem_setOf_eq] at ha hb
    rw [h3, h3]
    exact ha.trans hb.symm
  · intro a ha b hb e
    refine same a b ha hb (Fin.ext (hD a.1 b.1 _ _ a.2 b.2 (List.getElem?_eq_getElem a.1.2) (List.getElem?_eq_getElem b.1.2) ?_ e))
    simp only [slots, Finset.coe_filter, Finset.mem_univ, true_and, Set.mem_setOf_eq] at ha hb
    exact ha.trans hb.symm

theorem facet_out (v : Fin 3 → Nat) (i : Fin 3) : facetOf v (i + 2) = {v i, v (i + 1)} := by
  have h3 : ∀ i : Fin 3, i - 2 = i + 1 := by decide
  rw [facet3 v i 2 (by decide), h3]

theorem facet_in (v : Fin 3 → Nat) (i : Fin 3) : facetOf v (i + 1) = {v i, v (i + 2)} := by
  have h3 : ∀ i : Fin 3, i - 1 = i + 2 := by decide
  rw [facet3 v i 1 (by decide), h3]

/-- An element with the edge `{u, b}` runs through it from or to `u`. -/
theorem mem_of_hasFacet {h u b : Nat} (hub : u ≠ b) (hf : HasFacet E h {u, b}) :
    ∃ v i, E[h]? = some v ∧ v i = u ∧ (v (i + 1) = b ∨ v (i + 2) = b) := by
  obtain ⟨v, k, hv, hk⟩ := hf
  have h1 : u ∈ facetOf v k := by rw [hk]; simp
  have h2 : b ∈ facetOf v k := by rw [hk]; simp
  obtain ⟨i, -, hi⟩ := Finset.mem_image.1 h1
  obtain ⟨j, -, hj⟩ := Finset.mem_image.1 h2
  have hij : i ≠ j := by rintro rfl; exact hub (hi.symm.trans hj)
  have k2 : ∀ i j : Fin 3, i ≠ j → j = i + 1 ∨ j = i + 2 := by decide
  refine ⟨v, i, hv, hi, ?_⟩
  rcases k2 i j hij with rfl | rfl
  · exact Or.inl hj
  · exact Or.inr hj

theorem ne_of (hs : Simplices E) {h : Nat} {v : Fin 3 → Nat} (hv : E[h]? = some v) {i j : Fin 3} (hij : i ≠ j) : v i ≠ v j :=
  fun e => hij (hs v (List.mem_of_getElem? hv) e)

theorem boundary_of_out (hs : Simplices E) (hD : Directed E) {u b : Nat} (ho : b ∈ outs E u) (hi : b ∉ ins E u) : IsBoundary E {u, b} := by
  obtain ⟨h, v, i, hv, rfl, rfl⟩ := mem_outs.1 ho
  have k : ∀ i : Fin 3, i ≠ i + 1 := by decide
  refine ⟨h, ⟨v, i + 2, hv, facet_out v i⟩, fun h' hf => ?_⟩
  obtain ⟨v', i', hv', e1, e2 | e2⟩ := mem_of_hasFacet (ne_of hs hv (k i)) hf
  · exact hD h' h v' v i' i hv' hv e1 e2
  · exact absurd (mem_ins.2 ⟨h', v', i', hv', e1, e2⟩) hi

theorem boundary_of_in (hs : Simplices E) (hD : Directed E) {u b : Nat} (hi : b ∈ ins E u) (ho : b ∉ outs E u) : IsBoundary E {u, b} := by
  obtain ⟨h, v, i, hv, rfl, rfl⟩ := mem_ins.1 hi
  have k : ∀ i : Fin 3, i ≠ i + 2 := by decide
  have h3 : ∀ i : Fin 3, i + 2 + 1 = i := by decide
  refine ⟨h, ⟨v, i + 1, hv, facet_in v i⟩, fun h' hf => ?_⟩
  obtain ⟨v', i', hv', e1, e2 | e2⟩ := mem_of_hasFacet (ne_of hs hv (k i)) hf
  · exact absurd (mem_outs.2 ⟨h', v', i', hv', e1, e2⟩) ho
  · exact hD h' h v' v (i' + 2) (i + 2) hv' hv e2 (by rw [h3, h3]; exact e1)

/-- The start of a boundary edge from `u` is not among the ends of edges to `u`, and vice versa. -/
theorem out_not_in (hs : Simplices E) {h : Nat} {v : Fin 3 → Nat} (hv : E[h]? = some v) (i : Fin 3)
    (hb : ∀ h', HasFacet E h' (facetOf v (i + 2)) → h' = h) : v (i + 1) ∉ ins E (v i) := by
  intro hm
  obtain ⟨h', v', i', hv', e1, e2⟩ := mem_ins.1 hm
  obtain rfl := hb h' ⟨v', i' + 1, hv', by rw [facet_in, facet_out, e1, e2]⟩
  obtain rfl : v' = v := Option.some.inj (hv'.symm.trans hv)
  obtain rfl := hs v' (List.mem_of_getElem? hv') e1
  have k : ∀ i : Fin 3, i + 2 ≠ i + 1 := by decide
  exact ne_of hs hv' (k i') e2

theorem in_not_out (hs : Simplices E) {h : Nat} {v : Fin 3 → Nat} (hv : E[h]? = some v) (i : Fin 3)
    (hb : ∀ h', HasFacet E h' (facetOf v (i + 1)) → h' = h) : v (i + 2) ∉ outs E (v i) := by
  intro hm
  obtain ⟨h', v', i', hv', e1, e2⟩ := mem_outs.1 hm
  obtain rfl := hb h' ⟨v', i' + 2, hv', by rw [facet_in, facet_out, e1, e2]⟩
  obtain rfl : v' = v := Option.some.inj (hv'.symm.trans hv)
  obtain rfl := hs v' (List.mem_of_getElem? hv') e1
  have k : ∀ i : Fin 3, i + 2 ≠ i + 1 := by decide
  exact ne_of hs hv' (k i') e2.symm

theorem ridge_pair {u b : Nat} (h : u ≠ b) : IsRidge {u} {u, b} := by
  refine ⟨b, by simp, ?_⟩
  ext x
  simp only [Finset.mem_singleton, Finset.mem_erase, Finset.mem_insert]
  omega

theorem pair_inj {u a b : Nat} (h : ({u, a} : Finset Nat) = {u, b}) (ha : u ≠ a) : a = b := by
  have : a ∈ ({u, b} : Finset Nat) := by rw [← h]; simp
  simp only [Finset.mem_insert, Finset.mem_singleton] at this
  omega

/-- At most one boundary edge leads away from `u` and at most one to `u`, and there is one of each kind or none. -/
theorem balance (hs : Simplices E) (hm : BoundaryManifold E) (hD : Directed E) (u : Nat) :
    (outs E u \ ins E u).card = (ins E u \ outs E u).card ∧ (outs E u \ ins E u).card ≤ 1 := by
  have hc := Finset.card_sdiff_comm (card_outs_ins hs hD u)
  refine ⟨hc, ?_⟩
  by_contra hlt
  obtain ⟨a, ha, b, hb, hab⟩ := Finset.one_lt_card.1 (not_le.1 hlt)
  obtain ⟨x, hx⟩ := Finset.card_pos.1 (show 0 < (ins E u \ outs E u).card by omega)
  rw [Finset.mem_sdiff] at ha hb hx
  have hne : ∀ {y}, y ∈ outs E u → u ≠ y := by
    intro y hy
    obtain ⟨h, v, i, hv, rfl, rfl⟩ := mem_outs.1 hy
    have k : ∀ i : Fin 3, i ≠ i + 1 := by decide
    exact ne_of hs hv (k i)
  have hne' : ∀ {y}, y ∈ ins E u → u ≠ y := by
    intro y hy
    obtain ⟨h, v, i, hv, rfl, rfl⟩ := mem_ins.1 hy
    have k : ∀ i : Fin 3, i ≠ i + 2 := by decide
    exact ne_of hs hv (k i)
  rcases hm {u} _ _ _ (boundary_of_out hs hD ha.1 ha.2) (boundary_of_out hs hD hb.1 hb.2) (boundary_of_in hs hD hx.1 hx.2)
    (ridge_pair (hne ha.1)) (ridge_pair (hne hb.1)) (ridge_pair (hne' hx.1)) with e | e | e
  · exact hab (pair_inj e (hne ha.1))
  · exact hx.2 (pair_inj e (hne ha.1) ▸ ha.1)
  · exact hx.2 (pair_inj e (hne hb.1) ▸ hb.1)

/-! ### the cells -/

variable {order : List (Finset Nat × Slot 2)}

/-- A cell is an inserted element or the infinite face at a boundary edge. -/
theorem cell_cases (hE : Factory.Mesh E) (ho : order.Perm (createElements scheme2 E).st.fmap) {h : Nat} {c : Fin 3 → Option Nat}
    (hc : (ofTds (buildTds scheme2 E order)).cells[h]? = some c) :
    (∃ v, E[h]? = some v ∧ c = fun i => some (v i)) ∨
    ∃ h0 v i, E[h0]? = some v ∧ E.length ≤ h ∧ (∀ h', HasFacet E h' (facetOf v (i + 2)) → h' = h0) ∧ c 0 = some (v (i + 1)) ∧ c 1 = some (v i) ∧ c 2 = none := by
  obtain ⟨h1, h2, h3⟩ := hE.parts
  obtain ⟨hcells, hinf⟩ := cells_desc scheme2_valid hE order ho
  simp only [ofTds] at hc
  rw [hcells] at hc
  by_cases hlt : h < E.length
  · left
    rw [List.getElem?_append_left (by simpa using hlt), List.getElem?_map] at hc
    obtain ⟨v, hv, rfl⟩ := Option.map_eq_some_iff.1 hc
    exact ⟨v, hv, rfl⟩
  · right
    rw [List.getElem?_append_right (by simpa using Nat.le_of_not_lt hlt), List.getElem?_map] at hc
    obtain ⟨e, he, rfl⟩ := Option.map_eq_some_iff.1 hc
    have hmem := List.mem_of_getElem? he
    obtain ⟨v, hv, hcell⟩ := hinf e hmem
    obtain ⟨v', hv', hk, hu⟩ := (mem_fmap scheme2_valid h1 h2 e.1 e.2).1 (ho.mem_iff.1 hmem)
    obtain rfl : v' = v := Option.some.inj (hv'.symm.trans hv)
    have k1 : ∀ i : Fin 3, i + 1 + 2 = i := by decide
    have k2 : ∀ i : Fin 3, i + 1 + 1 = i + 2 := by decide
    refine ⟨e.2.1, v', e.2.2 + 1, hv, Nat.le_of_not_lt hlt, ?_, ?_, ?_, ?_⟩
    · rw [k1, ← hk]; exact hu
    · rw [hcell, k2]; rfl
    · rw [hcell]; rfl
    · rw [hcell]; rfl

/-- There is an infinite face at every boundary edge. -/
theorem exists_infinite (hE : Factory.Mesh E) (ho : order.Perm (createElements scheme2 E).st.fmap) {h0 : Nat} {v : Fin 3 → Nat} (hv : E[h0]? = some v)
    (i : Fin 3) (hb : ∀ h', HasFacet E h' (facetOf v (i + 2)) → h' = h0) :
    ∃ (h : Nat) (c : Fin 3 → Option Nat), (ofTds (buildTds scheme2 E order)).cells[h]? = some c ∧ c 0 = some (v (i + 1)) ∧ c 1 = some (v i) ∧ c 2 = none := by
  obtain ⟨h1, h2, h3⟩ := hE.parts
  obtain ⟨hcells, hinf⟩ := cells_desc scheme2_valid hE order ho
  have hmem : (facetOf v (i + 2), ((h0, i + 2) : Slot 2)) ∈ order := by
    rw [ho.mem_iff, mem_fmap scheme2_valid h1 h2]
    exact ⟨v, hv, rfl, hb⟩
  obtain ⟨v', hv', hcell⟩ := hinf _ hmem
  obtain rfl : v' = v := Option.some.inj (hv'.symm.trans hv)
  have hmem' : infCell scheme2 E (facetOf v' (i + 2), (h0, i + 2)) ∈ (ofTds (buildTds scheme2 E order)).cells := by
    simp only [ofTds]
    rw [hcells]
    exact List.mem_append_right _ (List.mem_map.2 ⟨_, hmem, rfl⟩)
  obtain ⟨h, hlt, he⟩ := List.getElem_of_mem hmem'
  have k1 : ∀ i : Fin 3, i + 2 + 2 = i + 1 := by decide
  have k2 : ∀ i : Fin 3, i + 2 + 1 = i := by decide
  refine ⟨h, infCell scheme2 E (facetOf v' (i + 2), (h0, i + 2)), List.getElem?_eq_some_iff.2 ⟨hlt, he⟩, ?_, ?_, ?_⟩
  · rw [hcell, ← k1]; rfl
  · rw [hcell]
    show some (v' (i + 2 + 1)) = some (v' i)
    rw [k2]
  · rw [hcell]; rfl

theorem cell_of_element (hE : Factory.Mesh E) (ho : order.Perm (createElements scheme2 E).st.fmap) {h : Nat} {v : Fin 3 → Nat} (hv : E[h]? = some v) :
    (ofTds (buildTds scheme2 E order)).cells[h]? = some (fun i => some (v i)) := by
  obtain ⟨hcells, -⟩ := cells_desc scheme2_valid hE order ho
  simp only [ofTds]
  rw [hcells, List.getElem?_append_left (by simpa using (List.getElem?_eq_some_iff.1 hv).1), List.getElem?_map, hv]
  rfl

/-- The factory builds a surface. -/
theorem surface (hE : Factory.Mesh E) (hD : Directed E) (ho : order.Perm (createElements scheme2 E).st.fmap) : Surface (ofTds (buildTds scheme2 E order)) := by
  have hV := ofTds_valid scheme2_valid hE order ho
  obtain ⟨h1, h2, h3⟩ := hE.parts
  generalize hT : ofTds (buildTds scheme2 E order) = T at hV
  have cases' : ∀ {h : Nat} {c : Fin 3 → Option Nat}, T.cells[h]? = some c → _ := fun {h c} hc => cell_cases hE ho (hT ▸ hc)
  have elem : ∀ {h : Nat} {v : Fin 3 → Nat}, E[h]? = some v → T.cells[h]? = some (fun i => some (v i)) := fun {h v} hv => hT ▸ cell_of_element hE ho hv
  have k3 : ∀ i : Fin 3, i = 0 ∨ i = 1 ∨ i = 2 := by decide
  -- two infinite faces at the same edge
  have uniq : ∀ {h h' h0 : Nat} {c c' : Fin 3 → Option Nat} {v : Fin 3 → Nat} {i k k' : Fin 3}, E[h0]? = some v → T.cells[h]? = some c → T.cells[h']? = some c' →
      h ≠ h0 → h' ≠ h0 → facetOf c k = facetOf (fun i => some (v i)) i → facetOf c' k' = facetOf (fun i => some (v i)) i → h = h' := by
    intro h h' h0 c c' v i k k' hv hc hc' n n' e e'
    have a := (hV.nbr_iff h0 i _ (elem hv) h).2 ⟨n, c, k, hc, e⟩
    have b := (hV.nbr_iff h0 i _ (elem hv) h').2 ⟨n', c', k', hc', e'⟩
    exact Option.some.inj (a.symm.trans b)
  have fin : ∀ {v : Fin 3 → Nat} {h : Nat}, E[h]? = some v → h < E.length := fun hv => (List.getElem?_eq_some_iff.1 hv).1
  have infFacet : ∀ {c : Fin 3 → Option Nat} {v : Fin 3 → Nat} {i : Fin 3}, c 0 = some (v (i + 1)) → c 1 = some (v i) →
      facetOf c 2 = facetOf (fun i => some (v i)) (i + 2) := by
    intro c v i e0 e1
    have := facet3 c 0 2 (by decide)
    rw [show (0 : Fin 3) + 2 = 2 by decide, show (0 : Fin 3) - 2 = 1 by decide] at this
    have k : ∀ i : Fin 3, i - 2 = i + 1 := by decide
    rw [this, facet3 _ i 2 (by decide), k, e0, e1, Finset.pair_comm]
  -- at most one infinite face with this edge from, or to, the infinite vertex
  have one : ∀ {u a b : Nat}, a ∈ outs E u \ ins E u → b ∈ outs E u \ ins E u → a = b := by
    intro u a b ha hb
    exact Finset.card_le_one.1 (balance h1 h3 hD u).2 a ha b hb
  have one' : ∀ {u a b : Nat}, a ∈ ins E u \ outs E u → b ∈ ins E u \ outs E u → a = b := by
    intro u a b ha hb
    have := balance h1 h3 hD u
    exact Finset.card_le_one.1 (this.1 ▸ this.2) a ha b hb
  have hin : ∀ {h0 : Nat} {v : Fin 3 → Nat} {i : Fin 3}, E[h0]? = some v → (∀ h', HasFacet E h' (facetOf v (i + 2)) → h' = h0) →
      v i ∈ ins E (v (i + 1)) \ outs E (v (i + 1)) := by
    intro h0 v i hv hb
    have k1 : ∀ i : Fin 3, i + 1 + 2 = i := by decide
    have k2 : ∀ i : Fin 3, i + 1 + 1 = i + 2 := by decide
    refine Finset.mem_sdiff.2 ⟨mem_ins.2 ⟨h0, v, i + 1, hv, rfl, by rw [k1]⟩, ?_⟩
    have := in_not_out h1 hv (i + 1) (by rw [k2]; exact hb)
    rwa [k1] at this
  have hout : ∀ {h0 : Nat} {v : Fin 3 → Nat} {i : Fin 3}, E[h0]? = some v → (∀ h', HasFacet E h' (facetOf v (i + 2)) → h' = h0) →
      v (i + 1) ∈ outs E (v i) \ ins E (v i) := by
    intro h0 v i hv hb
    exact Finset.mem_sdiff.2 ⟨mem_outs.2 ⟨h0, v, i, hv, rfl, rfl⟩, out_not_in h1 hv i hb⟩
  have sameInf : ∀ {h h' h0 h0' : Nat} {c c' : Fin 3 → Option Nat} {v v' : Fin 3 → Nat} {i i' : Fin 3}, T.cells[h]? = some c → T.cells[h']? = some c' →
      E[h0]? = some v → E[h0']? = some v' → E.length ≤ h → E.length ≤ h' → c 0 = some (v (i + 1)) → c 1 = some (v i) → c' 0 = some (v' (i' + 1)) → c' 1 = some (v' i') →
      v i = v' i' → v (i + 1) = v' (i' + 1) → h = h' := by
    intro h h' h0 h0' c c' v v' i i' hc hc' hv hv' hl hl' e0 e1 e0' e1' q1 q2
    have f1 := fin hv
    refine uniq hv hc hc' (by omega) (by omega) (infFacet e0 e1) (infFacet (c := c') (v := v) (i := i) ?_ ?_)
    · rw [e0', q2]
    · rw [e1', q1]
  refine ⟨hV.inj, hV.nbr_iff, ?_, ?_⟩
  · intro h i c hc
    rcases cases' hc with ⟨v, hv, rfl⟩ | ⟨h0, v, j, hv, hle, hb, e0, e1, e2⟩
    · exact hV.nbr_total h i _ hc (by simp [finite])
    · have hf := fin hv
      rcases k3 i with rfl | rfl | rfl
      · -- opposite to c 0: the edge (c 1, infinite) at u = v j
        have hpos : 0 < (ins E (v j) \ outs E (v j)).card := by
          rw [← (balance h1 h3 hD (v j)).1]
          exact Finset.card_pos.2 ⟨_, hout hv hb⟩
        obtain ⟨x, hx⟩ := Finset.card_pos.1 hpos
        rw [Finset.mem_sdiff] at hx
        obtain ⟨h0', v', i', hv', q1, q2⟩ := mem_ins.1 hx.1
        have hb' : ∀ h', HasFacet E h' (facetOf v' (i' + 2 + 2)) → h' = h0' := by
          have := boundary_of_in h1 hD hx.1 hx.2
          intro h' hf'
          have k : ∀ i : Fin 3, i + 2 + 2 = i + 1 := by decide
          rw [k, facet_in, q1, q2] at hf'
          obtain ⟨hh, -, huniq⟩ := this
          rw [huniq h' hf', huniq h0' ⟨v', i' + 1, hv', by rw [facet_in, q1, q2]⟩]
        obtain ⟨h', c', hc', e0', e1', e2'⟩ := exists_infinite hE ho hv' (i' + 2) hb'
        rw [hT] at hc'
        have k : ∀ i : Fin 3, i + 2 + 1 = i := by decide
        rw [k] at e0'
        refine ⟨h', (hV.nbr_iff h 0 c hc h').2 ⟨?_, c', 1, hc', ?_⟩⟩
        · rintro rfl
          obtain rfl : c = c' := Option.some.inj (hc.symm.trans hc')
          rw [e0'] at e0
          have := Option.some.inj e0
          rw [q1] at this
          have k : ∀ i : Fin 3, i ≠ i + 1 := by decide
          exact ne_of h1 hv (k j) this
        · have f1 := facet3 c' 0 1 (by decide)
          have f0 := facet3 c 1 2 (by decide)
          rw [show (0 : Fin 3) + 1 = 1 by decide, show (0 : Fin 3) - 1 = 2 by decide] at f1
          rw [show (1 : Fin 3) + 2 = 0 by decide, show (1 : Fin 3) - 2 = 2 by decide] at f0
          rw [f1, f0, e0', e2', e1, e2, q1]
      · -- opposite to c 1: the edge (infinite, c 0) at u = v (j + 1)
        have hpos : 0 < (outs E (v (j + 1)) \ ins E (v (j + 1))).card := by
          rw [(balance h1 h3 hD (v (j + 1))).1]
          exact Finset.card_pos.2 ⟨_, hin hv hb⟩
        obtain ⟨x, hx⟩ := Finset.card_pos.1 hpos
        rw [Finset.mem_sdiff] at hx
        obtain ⟨h0', v', i', hv', q1, q2⟩ := mem_outs.1 hx.1
        have hb' : ∀ h', HasFacet E h' (facetOf v' (i' + 2)) → h' = h0' := by
          have := boundary_of_out h1 hD hx.1 hx.2
          intro h' hf'
          rw [facet_out, q1, q2] at hf'
          obtain ⟨hh, -, huniq⟩ := this
          rw [huniq h' hf', huniq h0' ⟨v', i' + 2, hv', by rw [facet_out, q1, q2]⟩]
        obtain ⟨h', c', hc', e0', e1', e2'⟩ := exists_infinite hE ho hv' i' hb'
        rw [hT] at hc'
        refine ⟨h', (hV.nbr_iff h 1 c hc h').2 ⟨?_, c', 0, hc', ?_⟩⟩
        · rintro rfl
          obtain rfl : c = c' := Option.some.inj (hc.symm.trans hc')
          rw [e1'] at e1
          have := Option.some.inj e1
          rw [q1] at this
          have k : ∀ i : Fin 3, i + 1 ≠ i := by decide
          exact ne_of h1 hv (k j) this
        · have f1 := facet3 c 0 1 (by decide)
          have f0 := facet3 c' 1 2 (by decide)
          rw [show (0 : Fin 3) + 1 = 1 by decide, show (0 : Fin 3) - 1 = 2 by decide] at f1
          rw [show (1 : Fin 3) + 2 = 0 by decide, show (1 : Fin 3) - 2 = 2 by decide] at f0
          rw [f1, f0, e1', e2', e0, e2, q1]
      · exact ⟨h0, (hV.nbr_iff h 2 c hc h0).2 ⟨by omega, _, j + 2, elem hv, (infFacet e0 e1).symm⟩⟩
  · intro h h' c c' i i' hc hc' e e'
    have mixed : ∀ {h h' h0 : Nat} {c' : Fin 3 → Option Nat} {v v0 : Fin 3 → Nat} {i i' j : Fin 3}, T.cells[h']? = some c' → E[h]? = some v → E[h0]? = some v0 →
        E.length ≤ h' → (∀ h', HasFacet E h' (facetOf v0 (j + 2)) → h' = h0) → c' 0 = some (v0 (j + 1)) → c' 1 = some (v0 j) → c' 2 = none →
        some (v i) = c' i' → some (v (i + 1)) = c' (i' + 1) → False := by
      intro h h' h0 c' v v0 i i' j hc' hv hv0 hle hb e0 e1 e2 q1 q2
      rcases k3 i' with rfl | rfl | rfl
      · rw [e0] at q1
        rw [show (0 : Fin 3) + 1 = 1 by decide, e1] at q2
        have p1 := Option.some.inj q1
        have p2 := Option.some.inj q2
        obtain rfl := hb h ⟨v, i + 2, hv, by rw [facet_out, facet_out, p1, p2, Finset.pair_comm]⟩
        obtain rfl : v = v0 := Option.some.inj (hv.symm.trans hv0)
        obtain rfl := h1 v (List.mem_of_getElem? hv) p1
        have k : ∀ i : Fin 3, i + 1 + 1 ≠ i := by decide
        exact ne_of h1 hv (k j) p2
      · rw [show (1 : Fin 3) + 1 = 2 by decide, e2] at q2
        exact absurd q2 (by simp)
      · rw [e2] at q1
        exact absurd q1 (by simp)
    rcases cases' hc with ⟨v, hv, rfl⟩ | ⟨h0, v, j, hv, hle, hb, e0, e1, e2⟩
    · rcases cases' hc' with ⟨v', hv', rfl⟩ | ⟨h0', v', j', hv', hle', hb', e0', e1', e2'⟩
      · exact hD h h' v v' i i' hv hv' (Option.some.inj e) (Option.some.inj e')
      · exact (mixed hc' hv hv' hle' hb' e0' e1' e2' e e').elim
    · rcases cases' hc' with ⟨v', hv', rfl⟩ | ⟨h0', v', j', hv', hle', hb', e0', e1', e2'⟩
      · exact (mixed hc hv' hv hle hb e0 e1 e2 e.symm e'.symm).elim
      · -- two infinite faces
        have same : i = i' := by
          have h2 : ∀ {i : Fin 3} {c : Fin 3 → Option Nat} {a b : Nat}, c 0 = some a → c 1 = some b → c i = none → i = 2 := by
            intro i c a b ha hb hi
            rcases k3 i with rfl | rfl | rfl
            · rw [ha] at hi; exact absurd hi (by simp)
            · rw [hb] at hi; exact absurd hi (by simp)
            · rfl
          rcases k3 i with rfl | rfl | rfl
          · rcases k3 i' with rfl | rfl | rfl
            · rfl
            · rw [show (1 : Fin 3) + 1 = 2 by decide, e2', show (0 : Fin 3) + 1 = 1 by decide, e1] at e'
              exact absurd e' (by simp)
            · rw [e0, e2'] at e; exact absurd e (by simp)
          · rw [show (1 : Fin 3) + 1 = 2 by decide, e2] at e'
            have := h2 e0' e1' e'.symm
            have k : ∀ i : Fin 3, i + 1 = 2 → (1 : Fin 3) = i := by decide
            exact k i' this
          · rw [e2] at e
            exact (h2 e0' e1' e.symm).symm
        subst same
        rcases k3 i with rfl | rfl | rfl
        · rw [e0, e0'] at e
          rw [show (0 : Fin 3) + 1 = 1 by decide, e1, e1'] at e'
          exact sameInf hc hc' hv hv' hle hle' e0 e1 e0' e1' (Option.some.inj e') (Option.some.inj e)
        · rw [e1, e1'] at e
          have q := Option.some.inj e
          have m1 := hout hv hb
          have m2 := hout hv' hb'
          rw [← q] at m2
          exact sameInf hc hc' hv hv' hle hle' e0 e1 e0' e1' q (one m1 m2)
        · rw [show (2 : Fin 3) + 1 = 0 by decide, e0, e0'] at e'
          have q := Option.some.inj e'
          have m1 := hin hv hb
          have m2 := hin hv' hb'
          rw [← q] at m2
          exact sameInf hc hc' hv hv' hle hle' e0 e1 e0' e1' (one' m1 m2) q

end

end Verif.Circulate
