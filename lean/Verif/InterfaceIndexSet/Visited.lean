import Verif.InterfaceIndexSet.Props

/-!
# C22 for the elements the iteration visits
-/

namespace Verif.InterfaceIndexSet

open Verif RefElem IndexSet Tri Factory InterfaceIter

variable {d : Nat}

/-- The ids of the vertices of the visited facet in slot order (interface/indexsets.hh:251-255, 303-305). -/
def elementIds (g : Grid d) (p : Nat × Fin (d + 1)) : List Nat := (List.range d).filterMap (facetVertex g p)

/-- What the index update iterates over (interface/indexsets.hh:249-250, 300-301). -/
def visited (g : Grid d) : List (List Nat) := (interfaceElements g).map (elementIds g)

theorem facetVertex_inj (g : Grid d) (h : Nat) (i : Fin (d + 1)) (c) (hc : g.tri.cells[h]? = some c)
    (hinj : Function.Injective c) {k l : Nat} (hk : k < d) (hl : l < d)
    (he : facetVertex g (h, i) k = facetVertex g (h, i) l) : k = l := by
  unfold facetVertex at he
  simp only [hc] at he
  have := congrArg Fin.val (hinj he)
  simp only at this
  have hi := i.isLt
  rcases Nat.lt_or_ge (i.val + k + 1) (d + 1) with h1 | h1 <;> rcases Nat.lt_or_ge (i.val + l + 1) (d + 1) with h2 | h2
  · rw [Nat.mod_eq_of_lt h1, Nat.mod_eq_of_lt h2] at this; omega
  · rw [Nat.mod_eq_of_lt h1, Nat.mod_eq_sub_mod h2, Nat.mod_eq_of_lt (by omega)] at this; omega
  · rw [Nat.mod_eq_sub_mod h1, Nat.mod_eq_of_lt (show i.val + k + 1 - (d + 1) < d + 1 by omega), Nat.mod_eq_of_lt h2] at this
    omega
  · rw [Nat.mod_eq_sub_mod h1, Nat.mod_eq_sub_mod h2, Nat.mod_eq_of_lt (show i.val + k + 1 - (d + 1) < d + 1 by omega),
      Nat.mod_eq_of_lt (by omega)] at this
    omega

theorem elementIds_map (g : Grid d) (h : Nat) (i : Fin (d + 1)) (c) (hc : g.tri.cells[h]? = some c)
    (hfin : finite c = true) : (elementIds g (h, i)).map some = (List.range d).map (facetVertex g (h, i)) := by
  unfold elementIds
  rw [List.map_filterMap]
  induction List.range d with
  | nil => rfl
  | cons k l ih =>
    have : ∃ v, facetVertex g (h, i) k = some v := by
      unfold facetVertex
      simp only [hc]
      simp only [finite, decide_eq_true_eq] at hfin
      exact Option.ne_none_iff_exists'.1 (hfin _)
    obtain ⟨v, hv⟩ := this
    rw [List.filterMap_cons, hv]
    simp only [Option.map_some, List.map_cons, hv]
    rw [ih]

theorem elementIds_length (g : Grid d) (h : Nat) (i : Fin (d + 1)) (c) (hc : g.tri.cells[h]? = some c)
    (hfin : finite c = true) : (elementIds g (h, i)).length = d := by
  have := congrArg List.length (elementIds_map g h i c hc hfin)
  simpa using this

theorem elementIds_nodup (g : Grid d) (h : Nat) (i : Fin (d + 1)) (c) (hc : g.tri.cells[h]? = some c)
    (hfin : finite c = true) (hinj : Function.Injective c) : (elementIds g (h, i)).Nodup := by
  apply List.Nodup.of_map some
  rw [elementIds_map g h i c hc hfin]
  refine List.Nodup.map_on ?_ List.nodup_range
  intro k hk l hl he
  exact facetVertex_inj g h i c hc hinj (List.mem_range.1 hk) (List.mem_range.1 hl) he

/-- The ids are the vertices of the facet. -/
theorem mem_elementIds (g : Grid d) (h : Nat) (i : Fin (d + 1)) (c) (hc : g.tri.cells[h]? = some c) (v : Nat) :
    v ∈ elementIds g (h, i) ↔ some v ∈ g.tri.facet h i := by
  rw [← mem_facetVertex g h i c hc]
  unfold elementIds
  rw [List.mem_filterMap]
  constructor
  · rintro ⟨k, hk, he⟩; exact ⟨k, List.mem_range.1 hk, he⟩
  · rintro ⟨k, hk, he⟩; exact ⟨k, List.mem_range.2 hk, he⟩

/-- If neighbouring elements have different insertion numbers, no facet is visited through both of its sides. -/
theorem visited_elements (g : Grid d) (hT : g.tri.Valid)
    (hfinite : ∀ h i h', h ∈ g.tri.finiteCells → g.tri.nbr h i = some h' → h' ∈ g.tri.finiteCells → g.ins h ≠ g.ins h') :
    Elements d (visited g) := by
  have hel : ∀ p ∈ interfaceElements g, p ∈ positions g ∧ keep g p = true := by
    intro p hp
    unfold interfaceElements at hp
    rw [Iterate.rangeFor_eq_filter, List.mem_filter] at hp
    exact hp
  have hcell : ∀ p ∈ interfaceElements g, ∃ c, g.tri.cells[p.1]? = some c ∧ finite c = true := by
    rintro ⟨h, i⟩ hp
    exact (mem_finiteCells _ _).1 ((mem_positions g h i).1 (hel _ hp).1)
  refine ⟨?_, ?_, ?_⟩
  · intro e he
    obtain ⟨⟨h, i⟩, hp, rfl⟩ := List.mem_map.1 he
    obtain ⟨c, hc, hf⟩ := hcell _ hp
    exact elementIds_length g h i c hc hf
  · intro e he
    obtain ⟨⟨h, i⟩, hp, rfl⟩ := List.mem_map.1 he
    obtain ⟨c, hc, hf⟩ := hcell _ hp
    exact elementIds_nodup g h i c hc hf (hT.inj c (List.mem_of_getElem? hc))
  · unfold visited
    rw [List.pairwise_map]
    have hnd : (interfaceElements g).Nodup := by
      unfold interfaceElements
      rw [Iterate.rangeFor_eq_filter]
      exact List.Nodup.filter _ (nodup_positions g)
    refine List.Pairwise.imp_of_mem ?_ hnd
    rintro ⟨h, i⟩ ⟨h', i'⟩ hp hp' hne hperm
    obtain ⟨c, hc, hf⟩ := hcell _ hp
    obtain ⟨c', hc', hf'⟩ := hcell _ hp'
    have hnone : ∀ (a : Nat) (j : Fin (d + 1)) (x), g.tri.cells[a]? = some x → finite x = true → none ∉ g.tri.facet a j := by
      intro a j x hx hfx hm
      rw [facet_eq hx] at hm
      unfold facetOf at hm
      rw [Finset.mem_image] at hm
      obtain ⟨k, -, hk⟩ := hm
      simp only [finite, decide_eq_true_eq] at hfx
      exact hfx k hk
    have hfacet : facetOf c' i' = facetOf c i := by
      rw [← facet_eq hc' i', ← facet_eq hc i]
      ext v
      cases v with
      | none => exact ⟨fun hm => absurd hm (hnone _ _ _ hc' hf'), fun hm => absurd hm (hnone _ _ _ hc hf)⟩
      | some v => rw [← mem_elementIds g h i c hc, ← mem_elementIds g h' i' c' hc', hperm.mem_iff]
    by_cases hhh : h' = h
    · subst hhh
      rw [hc] at hc'; cases hc'
      exact hne (Prod.ext rfl (facetOf_inj' (hT.inj c (List.mem_of_getElem? hc)) hfacet).symm)
    · have n1 : g.tri.nbr h i = some h' := (hT.nbr_iff h i c hc h').2 ⟨hhh, c', i', hc', hfacet⟩
      have n2 : g.tri.nbr h' i' = some h := (hT.nbr_iff h' i' c' hc' h).2 ⟨fun e => hhh e.symm, c, i, hc, hfacet.symm⟩
      have k1 := (hel _ hp).2
      have k2 := (hel _ hp').2
      unfold keep at k1 k2
      simp only [n1, n2, Bool.and_eq_true, Bool.not_eq_true', decide_eq_false_iff_not, not_lt] at k1 k2
      have := hfinite h i h' ((mem_finiteCells _ _).2 ⟨c, hc, hf⟩) n1 ((mem_finiteCells _ _).2 ⟨c', hc', hf'⟩)
      omega

/-- **C106** (part) If neighbouring elements of the bulk grid have different insertion numbers (as in a grid just created
by the factory), the index update of the interface grid numbers the visited interface elements `0, ..., size(0)-1` and
their vertices `0, ..., size(dim)-1`. What is missing: elements created by `adapt` have no insertion number, see
`C106_double_false`. -/
theorem C106_visited_partial (hd : d = 2 ∨ d = 3) (g : Grid d) (hT : g.tri.Valid)
    (hfinite : ∀ h i h', h ∈ g.tri.finiteCells → g.tri.nbr h i = some h' → h' ∈ g.tri.finiteCells → g.ins h ≠ g.ins h') :
    ∃ s, update d (visited g) = some s ∧
      IsNumbering (fun p => indexElement s (elementIds g p)) {p | p ∈ interfaceElements g} s.elementCount ∧
      IsNumbering (indexVertex s) {v | ∃ p ∈ interfaceElements g, some v ∈ g.tri.facet p.1 p.2} s.vertexCount := by
  have hE := visited_elements g hT hfinite
  obtain ⟨s, hs, hc, hN, -⟩ := C22_elements hd (visited g) hE
  have hmem : ∀ p, p ∈ interfaceElements g → elementIds g p ∈ visited g := fun p hp => List.mem_map.2 ⟨p, hp, rfl⟩
  refine ⟨s, hs, ⟨?_, ?_, ?_⟩, ?_⟩
  · intro p hp; exact hN.1 _ (hmem p hp)
  · intro i hi
    obtain ⟨e, he, hi⟩ := hN.2.1 i hi
    obtain ⟨p, hp, rfl⟩ := List.mem_map.1 he
    exact ⟨p, hp, hi⟩
  · intro p hp q hq he
    have := hN.2.2 _ (hmem p hp) _ (hmem q hq) he
    by_contra hpq
    obtain ⟨a, ha⟩ := List.mem_iff_getElem?.1 (show p ∈ interfaceElements g from hp)
    obtain ⟨b, hb⟩ := List.mem_iff_getElem?.1 (show q ∈ interfaceElements g from hq)
    have hab : a ≠ b := by
      rintro rfl
      rw [ha] at hb
      exact hpq (Option.some.inj hb)
    have ha' : (visited g)[a]? = some (elementIds g p) := by unfold visited; rw [List.getElem?_map, ha]; rfl
    have hb' : (visited g)[b]? = some (elementIds g q) := by unfold visited; rw [List.getElem?_map, hb]; rfl
    obtain ⟨la, ea⟩ := List.getElem?_eq_some_iff.1 ha'
    obtain ⟨lb, eb⟩ := List.getElem?_eq_some_iff.1 hb'
    rcases Nat.lt_or_gt_of_ne hab with h | h
    · refine List.pairwise_iff_getElem.1 hE.distinct a b la lb h ?_
      rw [ea, eb, this]
    · refine List.pairwise_iff_getElem.1 hE.distinct b a lb la h ?_
      rw [ea, eb, this]
  · have hV := (C22_vertices hd (visited g) hE hs).1
    have hset : {v | ∃ p ∈ interfaceElements g, some v ∈ g.tri.facet p.1 p.2} = {v | ∃ e ∈ visited g, v ∈ e} := by
      ext v
      simp only [Set.mem_setOf_eq]
      constructor
      · rintro ⟨p, hp, hv⟩
        refine ⟨_, hmem p hp, ?_⟩
        obtain ⟨c, hc, -⟩ := (mem_finiteCells _ _).1 (C19_only_segments g p hp).2
        exact (mem_elementIds g p.1 p.2 c hc v).2 hv
      · rintro ⟨e, he, hv⟩
        obtain ⟨p, hp, rfl⟩ := List.mem_map.1 he
        obtain ⟨c, hc, -⟩ := (mem_finiteCells _ _).1 (C19_only_segments g p hp).2
        exact ⟨p, hp, (mem_elementIds g p.1 p.2 c hc v).1 hv⟩
    rw [hset]
    exact hV

/-- The grid of two triangles with the segment between them; the elements were numbered by the factory. -/
example : ∃ s, update 2 (visited { tri := exTri, ins := fun h => h, segs := {{some 1, some 2}} }) = some s ∧
    s.elementCount = 1 ∧ s.vertexCount = 2 := by
  have e : exTri.finiteCells = [0, 1] := by decide
  have hv : visited { tri := exTri, ins := fun h => h, segs := {{some 1, some 2}} } = [[1, 2]] := by
    unfold visited interfaceElements
    rw [Iterate.rangeFor_eq_filter]
    unfold positions
    simp only [e]
    decide
  rw [hv]
  decide

/-- **C106** is false if the elements on the two sides of a segment have equal insertion numbers (these are indeterminate
after `adapt`): for the only segment `size(0)` is 2, and no element has index 1. -/
theorem C106_double_false : exTri.Valid ∧
    ∃ s, update 2 (visited { tri := exTri, ins := fun _ => 7, segs := {{some 1, some 2}} }) = some s ∧
    s.elementCount = 2 ∧ ∀ e ∈ visited { tri := exTri, ins := fun _ => 7, segs := {{some 1, some 2}} },
      indexElement s e = some 0 := by
  have e : exTri.finiteCells = [0, 1] := by decide
  have hv : visited { tri := exTri, ins := fun _ => 7, segs := {{some 1, some 2}} } = [[1, 2], [2, 1]] := by
    unfold visited interfaceElements
    rw [Iterate.rangeFor_eq_filter]
    unfold positions
    simp only [e]
    decide
  refine ⟨exTri_valid, ?_⟩
  rw [hv]
  exact ⟨_, rfl, by decide, by decide⟩

end Verif.InterfaceIndexSet
