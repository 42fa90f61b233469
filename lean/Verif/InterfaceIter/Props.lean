import Verif.InterfaceIter.Model
import Verif.Factory.Props
import Mathlib.Data.List.Perm.Subperm

/-!
# C19, C20, C50, C55: iteration over the interface
-/

namespace Verif.InterfaceIter

open Verif Tri Factory

variable {d : Nat}

/-! ## C19 -/

/-- How often a segment is visited when iterating over the elements of the interface grid. -/
def visits (g : Grid d) (F : Finset (Option Nat)) : Nat :=
  (interfaceElements g).countP fun p => decide (g.tri.facet p.1 p.2 = F)

theorem nodup_positions (g : Grid d) : (positions g).Nodup := by
  unfold positions
  rw [List.nodup_flatMap]
  refine ⟨fun h _ => List.Nodup.map (fun a b hab => (Prod.mk.inj hab).2) (List.nodup_finRange _), ?_⟩
  refine List.Pairwise.imp ?_ (nodup_finiteCells g.tri)
  intro a b hab
  rw [Function.onFun, List.disjoint_left]
  intro x hx hy
  obtain ⟨i, -, rfl⟩ := List.mem_map.1 hx
  obtain ⟨j, -, h⟩ := List.mem_map.1 hy
  exact hab (Prod.mk.inj h).1.symm

theorem mem_positions (g : Grid d) (h : Nat) (i : Fin (d + 1)) : (h, i) ∈ positions g ↔ h ∈ g.tri.finiteCells := by
  unfold positions
  rw [List.mem_flatMap]
  constructor
  · rintro ⟨h', hh', hx⟩
    obtain ⟨j, -, hj⟩ := List.mem_map.1 hx
    rw [← (Prod.mk.inj hj).1]; exact hh'
  · intro hh
    exact ⟨h, hh, List.mem_map.2 ⟨i, List.mem_finRange i, rfl⟩⟩

/-- The visits of a segment are the facets of finite cells with these vertices that pass the filter. -/
theorem visits_eq (g : Grid d) (F : Finset (Option Nat)) (L : List (Nat × Fin (d + 1))) (hL : L.Nodup)
    (h : ∀ p, p ∈ L ↔ p.1 ∈ g.tri.finiteCells ∧ g.tri.facet p.1 p.2 = F ∧ keep g p = true) : visits g F = L.length := by
  unfold visits interfaceElements
  rw [Iterate.rangeFor_eq_filter, List.countP_filter, List.countP_eq_length_filter]
  apply List.Perm.length_eq
  rw [List.perm_ext_iff_of_nodup (List.Nodup.filter _ (nodup_positions g)) hL]
  rintro ⟨a, i⟩
  rw [h, List.mem_filter, mem_positions]
  simp

/-- **C19** Exactly how often a segment between two elements is visited: once, if the insertion numbers of these
elements differ, and twice if they are equal. -/
theorem C19_interior (g : Grid d) (hT : g.tri.Valid) (h h' : Nat) (i : Fin (d + 1)) (c c')
    (hc : g.tri.cells[h]? = some c) (hfin : finite c = true) (hn : g.tri.nbr h i = some h')
    (hc' : g.tri.cells[h']? = some c') (hfin' : finite c' = true) (hs : facetOf c i ∈ g.segs) :
    visits g (facetOf c i) = if g.ins h = g.ins h' then 2 else 1 := by
  obtain ⟨hne, c2, i', hc2, hf⟩ := (hT.nbr_iff h i c hc h').1 hn
  rw [hc'] at hc2; cases hc2
  have hn' : g.tri.nbr h' i' = some h := (hT.nbr_iff h' i' c' hc' h).2 ⟨hne.symm, c, i, hc, hf.symm⟩
  have m1 : h ∈ g.tri.finiteCells := (mem_finiteCells _ _).2 ⟨c, hc, hfin⟩
  have m2 : h' ∈ g.tri.finiteCells := (mem_finiteCells _ _).2 ⟨c', hc', hfin'⟩
  have f1 : g.tri.facet h i = facetOf c i := facet_eq hc i
  have f2 : g.tri.facet h' i' = facetOf c i := by rw [facet_eq hc' i', hf]
  have k1 : keep g (h, i) = true ↔ g.ins h ≤ g.ins h' := by
    unfold keep isInterface
    simp only [f1, hs, decide_true, Bool.true_and, hn]
    simp
  have k2 : keep g (h', i') = true ↔ g.ins h' ≤ g.ins h := by
    unfold keep isInterface
    simp only [f2, hs, decide_true, Bool.true_and, hn']
    simp
  have only : ∀ p : Nat × Fin (d + 1), p.1 ∈ g.tri.finiteCells → g.tri.facet p.1 p.2 = facetOf c i →
      p = (h, i) ∨ p = (h', i') := by
    rintro ⟨a, j⟩ ha hfa
    obtain ⟨ca, hca, -⟩ := (mem_finiteCells _ _).1 ha
    simp only at hfa
    rw [facet_eq hca j] at hfa
    rcases hT.two hc hn hca hfa with ⟨h1, h2⟩ | h1
    · left; exact Prod.ext h1 h2
    · right
      simp only at h1
      subst h1
      rw [hc'] at hca; cases hca
      rw [facetOf_inj' (hT.inj _ (List.mem_of_getElem? hc')) (hfa.trans hf.symm)]
  have hpne : (h, i) ≠ (h', i') := fun e => hne (Prod.mk.inj e).1.symm
  rcases Nat.lt_trichotomy (g.ins h) (g.ins h') with hlt | heq | hgt
  · rw [if_neg (by omega)]
    refine visits_eq g _ [(h, i)] (by simp) (fun p => ?_)
    constructor
    · intro hp
      rw [List.mem_singleton] at hp; subst hp
      exact ⟨m1, f1, k1.2 (by omega)⟩
    · rintro ⟨a1, a2, a3⟩
      rcases only p a1 a2 with rfl | rfl
      · simp
      · exact absurd (k2.1 a3) (by omega)
  · rw [if_pos heq]
    refine visits_eq g _ [(h, i), (h', i')] (by simpa using hpne) (fun p => ?_)
    constructor
    · intro hp
      rcases (by simpa using hp : p = (h, i) ∨ p = (h', i')) with rfl | rfl
      · exact ⟨m1, f1, k1.2 (by omega)⟩
      · exact ⟨m2, f2, k2.2 (by omega)⟩
    · rintro ⟨a1, a2, -⟩
      simpa using only p a1 a2
  · rw [if_neg (by omega)]
    refine visits_eq g _ [(h', i')] (by simp) (fun p => ?_)
    constructor
    · intro hp
      rw [List.mem_singleton] at hp; subst hp
      exact ⟨m2, f2, k2.2 (by omega)⟩
    · rintro ⟨a1, a2, a3⟩
      rcases only p a1 a2 with rfl | rfl
      · exact absurd (k1.1 a3) (by omega)
      · simp

/-- **C19** Exactly how often a segment on the domain boundary is visited: once or not at all, depending on the
(indeterminate) insertion number of the infinite element behind it. -/
theorem C19_boundary (g : Grid d) (hT : g.tri.Valid) (h m : Nat) (i : Fin (d + 1)) (c cm)
    (hc : g.tri.cells[h]? = some c) (hfin : finite c = true) (hn : g.tri.nbr h i = some m)
    (hcm : g.tri.cells[m]? = some cm) (hinf : finite cm = false) (hs : facetOf c i ∈ g.segs) :
    visits g (facetOf c i) = if g.ins h ≤ g.ins m then 1 else 0 := by
  have m1 : h ∈ g.tri.finiteCells := (mem_finiteCells _ _).2 ⟨c, hc, hfin⟩
  have f1 : g.tri.facet h i = facetOf c i := facet_eq hc i
  have k1 : keep g (h, i) = true ↔ g.ins h ≤ g.ins m := by
    unfold keep isInterface
    simp only [f1, hs, decide_true, Bool.true_and, hn]
    simp
  have only : ∀ p : Nat × Fin (d + 1), p.1 ∈ g.tri.finiteCells → g.tri.facet p.1 p.2 = facetOf c i → p = (h, i) := by
    rintro ⟨a, j⟩ ha hfa
    obtain ⟨ca, hca, hfa'⟩ := (mem_finiteCells _ _).1 ha
    simp only at hfa
    rw [facet_eq hca j] at hfa
    rcases hT.two hc hn hca hfa with ⟨h1, h2⟩ | h1
    · exact Prod.ext h1 h2
    · exfalso
      simp only at h1
      subst h1
      rw [hcm] at hca; cases hca
      rw [hinf] at hfa'; cases hfa'
  by_cases hle : g.ins h ≤ g.ins m
  · rw [if_pos hle]
    refine visits_eq g _ [(h, i)] (by simp) (fun p => ?_)
    constructor
    · intro hp
      rw [List.mem_singleton] at hp; subst hp
      exact ⟨m1, f1, k1.2 hle⟩
    · rintro ⟨a1, a2, -⟩
      rw [only p a1 a2]; simp
  · rw [if_neg hle]
    refine visits_eq g _ [] (by simp) (fun p => ?_)
    constructor
    · intro hp; simp at hp
    · rintro ⟨a1, a2, a3⟩
      rw [only p a1 a2] at a3
      exact absurd (k1.1 a3) hle

/-- **C19** Nothing but interface segments is visited. -/
theorem C19_only_segments (g : Grid d) (p : Nat × Fin (d + 1)) (hp : p ∈ interfaceElements g) :
    g.tri.facet p.1 p.2 ∈ g.segs ∧ p.1 ∈ g.tri.finiteCells := by
  unfold interfaceElements at hp
  rw [Iterate.rangeFor_eq_filter, List.mem_filter] at hp
  obtain ⟨h1, h2⟩ := hp
  rw [mem_positions] at h1
  refine ⟨?_, h1⟩
  unfold keep isInterface at h2
  rw [Bool.and_eq_true] at h2
  simpa using h2.1

/-- **C105** (part) If neighbouring elements have different insertion numbers and infinite elements have no smaller
number than their neighbours, each interface segment is visited exactly once. What is missing: the insertion
numbers of elements created by `adapt` and of infinite elements are never set. -/
theorem C105_once_partial (g : Grid d) (hT : g.tri.Valid)
    (hfinite : ∀ h i h', h ∈ g.tri.finiteCells → g.tri.nbr h i = some h' → h' ∈ g.tri.finiteCells → g.ins h ≠ g.ins h')
    (hinfinite : ∀ h i m, h ∈ g.tri.finiteCells → g.tri.nbr h i = some m → m ∉ g.tri.finiteCells → g.ins h ≤ g.ins m)
    (F : Finset (Option Nat)) (hs : F ∈ g.segs) (hF : ∃ h i, h ∈ g.tri.finiteCells ∧ g.tri.facet h i = F) :
    visits g F = 1 := by
  obtain ⟨h, i, hh, rfl⟩ := hF
  obtain ⟨c, hc, hfin⟩ := (mem_finiteCells _ _).1 hh
  obtain ⟨m, hn⟩ := hT.nbr_total h i c hc hfin
  obtain ⟨-, cm, im, hcm, -⟩ := (hT.nbr_iff h i c hc m).1 hn
  rw [facet_eq hc i] at hs ⊢
  cases hfm : finite cm with
  | true =>
    rw [C19_interior g hT h m i c cm hc hfin hn hcm hfm hs]
    rw [if_neg (hfinite h i m hh hn ((mem_finiteCells _ _).2 ⟨cm, hcm, hfm⟩))]
  | false =>
    rw [C19_boundary g hT h m i c cm hc hfin hn hcm hfm hs]
    rw [if_pos (hinfinite h i m hh hn (fun hm => ?_))]
    obtain ⟨c', hc', hf'⟩ := (mem_finiteCells _ _).1 hm
    rw [hcm] at hc'; cases hc'
    rw [hfm] at hf'; cases hf'

/-- The grid made by the explicit factory from a mesh: element `h` has insertion number `num h`, the infinite elements
have arbitrary numbers `junk`. -/
def factoryGrid {S : Scheme d} (E : List (Fin (d + 1) → Nat)) (order : List (Finset Nat × Slot d)) (num junk : Nat → Nat)
    (segs : Finset (Finset (Option Nat))) : Grid d :=
  { tri := ofTds (buildTds S E order), ins := fun h => if h < E.length then num h else junk h, segs := segs }

/-- **C19** In a grid freshly created by the explicit factory every interface segment inside the domain is visited
exactly once, whatever the order of the elements and whatever is stored in the infinite elements. -/
theorem C19_fresh {S : Scheme d} (hS : S.Valid) (E : List (Fin (d + 1) → Nat)) (hE : Mesh E)
    (order : List (Finset Nat × Slot d)) (ho : order.Perm (createElements S E).st.fmap) (num junk : Nat → Nat)
    (hnum : ∀ a b, a < E.length → b < E.length → num a = num b → a = b) (segs : Finset (Finset (Option Nat)))
    (F : Finset Nat) (hF : mult E F = 2) (hs : F.image some ∈ segs) :
    visits (factoryGrid (S := S) E order num junk segs) (F.image some) = 1 := by
  have hV := ofTds_valid hS hE order ho
  have hpos : 0 < mult E F := by omega
  unfold mult at hpos
  rw [List.countP_pos_iff] at hpos
  obtain ⟨v, hv, hvi⟩ := hpos
  simp only [decide_eq_true_eq] at hvi
  obtain ⟨i, hi⟩ := hvi
  obtain ⟨h, hh⟩ := List.mem_iff_getElem?.1 hv
  obtain ⟨-, hb⟩ := boundary_facets hS hE order ho h v hh i
  rw [hi] at hb
  obtain ⟨h', v', hn, hne, hv', i', hi'⟩ := hb hF
  have hcells := (cells_desc hS hE order ho).1
  have hget : ∀ (a : Nat) (w : Fin (d + 1) → Nat), E[a]? = some w → (buildTds S E order).cells[a]? = some (fun i => some (w i)) := by
    intro a w ha
    rw [hcells, List.getElem?_append_left (by simpa using (List.getElem?_eq_some_iff.1 ha).1), List.getElem?_map, ha]
    rfl
  have hff : ∀ w : Fin (d + 1) → Nat, finite (fun i => some (w i)) = true := by intro w; simp [finite]
  have hfo : facetOf (fun i => some (v i)) i = F.image some := by rw [facetOf_some, hi]
  have := C19_interior (factoryGrid (S := S) E order num junk segs) hV h h' i _ _ (hget h v hh) (hff v) hn (hget h' v' hv')
    (hff v') (by rw [hfo]; exact hs)
  rw [hfo] at this
  rw [this, if_neg]
  have l1 := (List.getElem?_eq_some_iff.1 hh).1
  have l2 := (List.getElem?_eq_some_iff.1 hv').1
  simp only [factoryGrid, l1, l2, if_true]
  exact fun e => hne (hnum _ _ l2 l1 e.symm)

/-- The grid of two triangles (0 1 2), (3 2 1) made by the explicit factory. -/
def exTri : Tri 2 := ofTds (buildTds scheme2 exMesh (createElements scheme2 exMesh).st.fmap)

theorem exTri_valid : exTri.Valid := ofTds_valid scheme2_valid exMesh_mesh _ (List.Perm.refl _)

/-- **C105** is false in general: after `adapt` the elements have no insertion numbers; if the stored values are equal
the segment is visited twice, and a segment on the boundary is not visited at all if the infinite element behind it
happens to store a smaller number. -/
theorem C105_false : exTri.Valid ∧
    (visits { tri := exTri, ins := fun _ => 7, segs := {{some 1, some 2}} } {some 1, some 2} = 2) ∧
    (visits { tri := exTri, ins := fun h => if h < 2 then 1 + h else 0, segs := {{some 0, some 1}} } {some 0, some 1} = 0) := by
  have e : exTri.finiteCells = [0, 1] := by decide
  refine ⟨exTri_valid, ?_, ?_⟩
  · unfold visits interfaceElements
    rw [Iterate.rangeFor_eq_filter]
    unfold positions
    simp only [e]
    decide
  · unfold visits interfaceElements
    rw [Iterate.rangeFor_eq_filter]
    unfold positions
    simp only [e]
    decide

/-- Non-vacuity of `C19_fresh`: the mesh of two triangles with the shared facet (1 2). -/
example : Mesh exMesh ∧ mult exMesh {1, 2} = 2 := ⟨exMesh_mesh, by decide⟩

/-! ## C55: the interface element of a facet does not depend on the side -/

theorem find_facet {T : Tri d} (hT : T.Valid) {m : Nat} {c} (hc : T.cells[m]? = some c) {j : Fin (d + 1)}
    {F : Finset (Option Nat)} (hj : facetOf c j = F) :
    (List.finRange (d + 1)).find? (fun k => decide (T.facet m k = F)) = some j := by
  cases hf : (List.finRange (d + 1)).find? (fun k => decide (T.facet m k = F)) with
  | none =>
    rw [List.find?_eq_none] at hf
    have := hf j (List.mem_finRange j)
    simp [facet_eq hc, hj] at this
  | some k =>
    have := List.find?_some hf
    simp only [facet_eq hc, decide_eq_true_eq] at this
    rw [facetOf_inj' (hT.inj _ (List.mem_of_getElem? hc)) (this.trans hj.symm)]

/-- **C55** (part) If the insertion numbers of the two adjacent elements differ, the interface elements made from the
two sides are equal. -/
theorem C55_same (g : Grid d) (hT : g.tri.Valid) (h h' : Nat) (i i' : Fin (d + 1)) (c c')
    (hc : g.tri.cells[h]? = some c) (hc' : g.tri.cells[h']? = some c') (hne : h ≠ h')
    (hf : facetOf c' i' = facetOf c i) (hins : g.ins h ≠ g.ins h') : canonical g h i = canonical g h' i' := by
  have hn : g.tri.nbr h i = some h' := (hT.nbr_iff h i c hc h').2 ⟨hne.symm, c', i', hc', hf⟩
  have hn' : g.tri.nbr h' i' = some h := (hT.nbr_iff h' i' c' hc' h).2 ⟨hne, c, i, hc, hf.symm⟩
  have e1 := find_facet hT hc' (F := g.tri.facet h i) (j := i') (by rw [facet_eq hc, hf])
  have e2 := find_facet hT hc (F := g.tri.facet h' i') (j := i) (by rw [facet_eq hc', hf])
  unfold canonical
  rw [hn, hn']
  simp only [e1, e2]
  rcases Nat.lt_or_gt_of_ne hins with hlt | hgt
  · rw [if_neg (by omega), if_pos hlt]
  · rw [if_pos hgt, if_neg (by omega)]

/-- **C55** In a grid freshly created by the explicit factory both sides of every facet inside the domain give the same interface
element, whatever is stored in the infinite elements. -/
theorem C55_created {S : Scheme d} (hS : S.Valid) (E : List (Fin (d + 1) → Nat)) (hE : Mesh E)
    (order : List (Finset Nat × Slot d)) (ho : order.Perm (createElements S E).st.fmap) (num junk : Nat → Nat)
    (hnum : ∀ a b, a < E.length → b < E.length → num a = num b → a = b) (segs : Finset (Finset (Option Nat)))
    (a b : Nat) (v w : Fin (d + 1) → Nat) (hv : E[a]? = some v) (hw : E[b]? = some w) (i j : Fin (d + 1))
    (hf : (Finset.univ.erase i).image v = (Finset.univ.erase j).image w) :
    canonical (factoryGrid (S := S) E order num junk segs) a i = canonical (factoryGrid (S := S) E order num junk segs) b j := by
  have hV := ofTds_valid hS hE order ho
  have hcells := (cells_desc hS hE order ho).1
  have hget : ∀ (a : Nat) (w : Fin (d + 1) → Nat), E[a]? = some w → (buildTds S E order).cells[a]? = some (fun i => some (w i)) := by
    intro a w ha
    rw [hcells, List.getElem?_append_left (by simpa using (List.getElem?_eq_some_iff.1 ha).1), List.getElem?_map, ha]
    rfl
  by_cases hab : a = b
  · subst hab
    rw [hv] at hw
    cases hw
    have hi := hE.simplices v (List.mem_of_getElem? hv)
    have : i = j := by
      by_contra hij
      have h1 : v j ∈ (Finset.univ.erase i).image v := Finset.mem_image_of_mem v (Finset.mem_erase.2 ⟨Ne.symm hij, Finset.mem_univ _⟩)
      rw [hf] at h1
      obtain ⟨k, hk, he⟩ := Finset.mem_image.1 h1
      exact (Finset.mem_erase.1 hk).1 (hi he)
    rw [this]
  · have l1 := (List.getElem?_eq_some_iff.1 hv).1
    have l2 := (List.getElem?_eq_some_iff.1 hw).1
    refine C55_same (factoryGrid (S := S) E order num junk segs) hV a b i j _ _ (hget a v hv) (hget b w hw) hab ?_ ?_
    · rw [facetOf_some, facetOf_some]
      unfold facetOf
      rw [hf]
    · simp only [factoryGrid, l1, l2, if_true]
      exact fun e => hab (hnum _ _ l1 l2 e)

example : canonical (factoryGrid (S := scheme2) exMesh (createElements scheme2 exMesh).st.fmap (fun h => h) (fun _ => 0) {{some 1, some 2}}) 0 0 =
    canonical (factoryGrid (S := scheme2) exMesh (createElements scheme2 exMesh).st.fmap (fun h => h) (fun _ => 0) {{some 1, some 2}}) 1 0 :=
  C55_created scheme2_valid exMesh exMesh_mesh _ (List.Perm.refl _) _ _ (fun _ _ _ _ h => h) _ 0 1 _ _ rfl rfl 0 0 (by decide)

/-- **C55** The interface element always represents the given facet. -/
theorem C55_facet (g : Grid d) (hT : g.tri.Valid) (h : Nat) (i : Fin (d + 1)) (c) (hc : g.tri.cells[h]? = some c) :
    g.tri.facet (canonical g h i).1 (canonical g h i).2 = g.tri.facet h i := by
  unfold canonical
  cases hn : g.tri.nbr h i with
  | none => rfl
  | some m =>
    simp only
    split
    · obtain ⟨-, c', i', hc', hf⟩ := (hT.nbr_iff h i c hc m).1 hn
      rw [find_facet hT hc' (F := g.tri.facet h i) (j := i') (by rw [facet_eq hc, hf])]
      simp only
      rw [facet_eq hc', facet_eq hc, hf]
    · rfl

/-- **C148** is false if the two insertion numbers are equal: the elements made from the two sides differ. -/
theorem C148_false :
    canonical { tri := exTri, ins := fun _ => 7, segs := {{some 1, some 2}} } 0 0 ≠
    canonical { tri := exTri, ins := fun _ => 7, segs := {{some 1, some 2}} } 1 0 := by
  decide

/-! ## C50 -/

/-- **C50** is false: the option has no effect. -/
theorem C50_ignored_false (g : Grid d) (facets : List (Nat × Fin (d + 1))) :
    bulkInterfaceElements g facets true = bulkInterfaceElements g facets false := rfl

/-- ... so that an interface segment on the domain boundary is never visited. -/
theorem C50_not_visited_false :
    (0, 2) ∉ bulkInterfaceElements { tri := exTri, ins := fun h => h, segs := {{some 0, some 1}} } [(0, 0), (0, 1), (0, 2)] true ∧
    isInterface { tri := exTri, ins := fun h => h, segs := {{some 0, some 1}} } 0 2 = true := by
  constructor
  · unfold bulkInterfaceElements
    rw [Iterate.rangeFor_eq_filter]
    decide
  · decide

/-- Which facets are visited: the interface segments between two finite elements. -/
theorem C50_interior (g : Grid d) (facets : List (Nat × Fin (d + 1))) (b : Bool) (p : Nat × Fin (d + 1)) :
    p ∈ bulkInterfaceElements g facets b ↔ p ∈ facets ∧ g.tri.facet p.1 p.2 ∈ g.segs ∧ atInfinite g p = false := by
  unfold bulkInterfaceElements
  rw [Iterate.rangeFor_eq_filter, List.mem_filter]
  unfold keepBulk isInterface
  simp

/-- **C50** (part) If no interface segment lies on the domain boundary, all are visited, each once. -/
theorem C50_all_partial (g : Grid d) (facets : List (Nat × Fin (d + 1))) (hnd : facets.Nodup)
    (hno : ∀ p ∈ facets, g.tri.facet p.1 p.2 ∈ g.segs → atInfinite g p = false) (b : Bool) :
    (bulkInterfaceElements g facets b).Nodup ∧
    ∀ p, p ∈ bulkInterfaceElements g facets b ↔ p ∈ facets ∧ g.tri.facet p.1 p.2 ∈ g.segs := by
  constructor
  · unfold bulkInterfaceElements
    rw [Iterate.rangeFor_eq_filter]
    exact hnd.filter _
  · intro p
    rw [C50_interior]
    constructor
    · rintro ⟨h1, h2, -⟩; exact ⟨h1, h2⟩
    · rintro ⟨h1, h2⟩; exact ⟨h1, h2, hno p h1 h2⟩

example : atInfinite { tri := exTri, ins := fun h => h, segs := {{some 1, some 2}} } (0, 0) = false := by decide

/-! ## C20 -/

theorem mem_visitUnseen (l visited : List (Option Nat)) (v : Option Nat) :
    v ∈ visitUnseen visited l ↔ v ∈ l ∧ v ∉ visited := by
  induction l generalizing visited with
  | nil => simp [visitUnseen]
  | cons a l ih =>
    unfold visitUnseen
    by_cases ha : a ∈ visited
    · rw [if_pos ha, ih, List.mem_cons]
      constructor
      · rintro ⟨h1, h2⟩; exact ⟨Or.inr h1, h2⟩
      · rintro ⟨rfl | h1, h2⟩
        · exact absurd ha h2
        · exact ⟨h1, h2⟩
    · rw [if_neg ha, List.mem_cons, ih, List.mem_cons, List.mem_cons]
      constructor
      · rintro (rfl | ⟨h1, h2⟩)
        · exact ⟨Or.inl rfl, ha⟩
        · exact ⟨Or.inr h1, fun h => h2 (Or.inr h)⟩
      · rintro ⟨rfl | h1, h2⟩
        · exact Or.inl rfl
        · by_cases hv : v = a
          · exact Or.inl hv
          · exact Or.inr ⟨h1, fun h => h.elim hv h2⟩

theorem nodup_visitUnseen (l visited : List (Option Nat)) : (visitUnseen visited l).Nodup := by
  induction l generalizing visited with
  | nil => simp [visitUnseen]
  | cons a l ih =>
    unfold visitUnseen
    by_cases ha : a ∈ visited
    · rw [if_pos ha]; exact ih _
    · rw [if_neg ha, List.nodup_cons]
      refine ⟨?_, ih _⟩
      rw [mem_visitUnseen]
      rintro ⟨-, h⟩
      exact h (List.mem_cons_self ..)

/-- The vertices of a facet by position: the code's numbering runs through exactly the vertices of the facet. -/
theorem mem_facetVertex (g : Grid d) (h : Nat) (i : Fin (d + 1)) (c) (hc : g.tri.cells[h]? = some c) (v : Option Nat) :
    (∃ k, k < d ∧ facetVertex g (h, i) k = v) ↔ v ∈ g.tri.facet h i := by
  rw [facet_eq hc]
  unfold facetVertex facetOf
  simp only [hc, Finset.mem_image, Finset.mem_erase, Finset.mem_univ, and_true]
  constructor
  · rintro ⟨k, hk, rfl⟩
    refine ⟨_, ?_, rfl⟩
    intro he
    have := congrArg Fin.val he
    simp only at this
    have hi := i.isLt
    rcases Nat.lt_or_ge (i.val + k + 1) (d + 1) with h1 | h1
    · rw [Nat.mod_eq_of_lt h1] at this; omega
    · rw [Nat.mod_eq_sub_mod h1, Nat.mod_eq_of_lt (by omega)] at this; omega
  · rintro ⟨j, hj, rfl⟩
    have hi := i.isLt
    have hjl := j.isLt
    have hne : j.val ≠ i.val := fun e => hj (Fin.ext e)
    refine ⟨if i.val < j.val then j.val - i.val - 1 else j.val + d - i.val, ?_, ?_⟩
    · split <;> omega
    · congr 1
      apply Fin.ext
      simp only
      split
      · rw [Nat.mod_eq_of_lt (by omega)]; omega
      · rw [Nat.mod_eq_sub_mod (by omega), Nat.mod_eq_of_lt (by omega)]; omega

/-- **C20** `interfaceVertices` visits no vertex twice, and exactly the vertices of the interface segments: of all of
them with `includeBoundary`, of those between two finite elements otherwise. -/
theorem C20_vertices (g : Grid d) (facets : List (Nat × Fin (d + 1)))
    (hfac : ∀ p ∈ facets, ∃ c, g.tri.cells[p.1]? = some c) (includeBoundary : Bool) :
    (interfaceVertices g facets includeBoundary).Nodup ∧
    ∀ v, v ∈ interfaceVertices g facets includeBoundary ↔
      ∃ p ∈ facets, g.tri.facet p.1 p.2 ∈ g.segs ∧ (includeBoundary = true ∨ atInfinite g p = false) ∧
        v ∈ g.tri.facet p.1 p.2 := by
  refine ⟨nodup_visitUnseen _ _, ?_⟩
  intro v
  unfold interfaceVertices
  rw [mem_visitUnseen]
  simp only [List.not_mem_nil, not_false_eq_true, and_true]
  unfold vertexPositions
  rw [Iterate.rangeFor_eq_filter, List.mem_flatMap]
  have hk : ∀ p : Nat × Fin (d + 1), keepBulk g includeBoundary p = true ↔
      g.tri.facet p.1 p.2 ∈ g.segs ∧ (includeBoundary = true ∨ atInfinite g p = false) := by
    intro p
    unfold keepBulk isInterface
    cases includeBoundary <;> simp
  constructor
  · rintro ⟨⟨h, i⟩, hp, hv⟩
    rw [List.mem_filter, hk] at hp
    obtain ⟨c, hc⟩ := hfac _ hp.1
    obtain ⟨k, hk', hkv⟩ := List.mem_map.1 hv
    exact ⟨(h, i), hp.1, hp.2.1, hp.2.2, (mem_facetVertex g h i c hc v).1 ⟨k, List.mem_range.1 hk', hkv⟩⟩
  · rintro ⟨⟨h, i⟩, hp, hs, hb, hv⟩
    obtain ⟨c, hc⟩ := hfac _ hp
    obtain ⟨k, hk', hkv⟩ := (mem_facetVertex g h i c hc v).2 hv
    exact ⟨(h, i), List.mem_filter.2 ⟨hp, (hk _).2 ⟨hs, hb⟩⟩, List.mem_map.2 ⟨k, List.mem_range.2 hk', hkv⟩⟩

/-- Non-vacuity: two segments sharing the vertex 2; the three vertices are visited once each. -/
example : interfaceVertices { tri := exTri, ins := fun h => h, segs := {{some 1, some 2}, {some 0, some 2}} }
    [(0, 0), (0, 1), (0, 2), (1, 1), (1, 2)] true = [some 1, some 2, some 0] := by
  unfold interfaceVertices
  rw [Iterate.rangeFor_eq_filter]
  decide

end Verif.InterfaceIter
