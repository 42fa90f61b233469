import Verif.IndexSet.Props
import Verif.InterfaceIndexSet.Props
import Mathlib.Data.Set.Card

/-!
# C223, C224: sizes of the leaf index sets by geometry type (grid/indexsets.hh:124-163, interface/indexsets.hh:191-222)
-/

namespace Verif.IndexSet

open Verif.RefElem

/-! ## Model -/

/-- Geometry types. (Models: `GeometryType`, dune-geometry.) -/
inductive GeomType
  | vertex | line | triangle | tetrahedron
  /-- any other type, for example quadrilaterals -/
  | other
  deriving DecidableEq

/-- `size(int codim)` with `sizeOfCodim_` (grid/indexsets.hh:139-142, interface/indexsets.hh:203-206). `none`: the number is not an index of the array, which is undefined (an assertion without
`NDEBUG`). -/
def sizeOfCodim (sizes : List ℕ) (codim : ℤ) : Option ℕ := if codim < 0 then none else sizes[codim.toNat]?

/-- grid/indexsets.hh:124-136 `size(GeometryType type)` of the bulk grid. -/
def sizeOfType (dim : ℕ) (sizes : List ℕ) : GeomType → Option ℕ
  | .vertex => sizeOfCodim sizes dim
  | .line => sizeOfCodim sizes (dim - 1)
  | .triangle => sizeOfCodim sizes (dim - 2)
  | .tetrahedron => sizeOfCodim sizes (dim - 3)
  | .other => some 0

/-- interface/indexsets.hh:191-200 `size(GeometryType type)` of the interface grid of dimension `dim`. -/
def isizeOfType (dim : ℕ) (sizes : List ℕ) : GeomType → Option ℕ
  | .vertex => sizeOfCodim sizes dim
  | .line => sizeOfCodim sizes (dim - 1)
  | .triangle => sizeOfCodim sizes (dim - 2)
  | .tetrahedron => some 0
  | .other => some 0

/-- grid/indexsets.hh:148-162, interface/indexsets.hh:212-223 `types(codim)`, `none` is the exception. Simplified: on the interface the dimension is at most 2, there is no case 3. -/
def types (dim codim : ℤ) : Option GeomType :=
  if dim - codim = 0 then some .vertex
  else if dim - codim = 1 then some .line
  else if dim - codim = 2 then some .triangle
  else if dim - codim = 3 then some .tetrahedron
  else none

/-- `sizeOfCodim_` of the bulk grid in 2D (grid/indexsets.hh:253-256). -/
def sizes2 (s : Indices) : List ℕ := [s.sizeElem, s.sizeFacet, s.sizeVert]

/-- `sizeOfCodim_` of the bulk grid in 3D (grid/indexsets.hh:287-291). -/
def sizes3 (s : Indices) (edges : (List ℕ → Option ℕ) × ℕ) : List ℕ := [s.sizeElem, s.sizeFacet, edges.2, s.sizeVert]

/-- `sizeOfCodim_` of the interface grid (interface/indexsets.hh:273-275, 334-337). -/
def isizes (d : ℕ) (s : InterfaceIndexSet.State) : List ℕ :=
  if d = 2 then [s.elementCount, s.vertexCount] else [s.elementCount, s.edgeCount, s.vertexCount]

/-- grid/indexsets.hh:36-37, the copy constructor: the sizes are copied, the map of the facets is not. The indices of elements and vertices are stored in the grid. -/
def Indices.copy (s : Indices) : Indices := { s with facet := fun _ => none }

/-! ## Specification -/

/-- The number of vertices of a simplex of the type, less one. -/
def GeomType.dim : GeomType → Option ℕ
  | .vertex => some 0
  | .line => some 1
  | .triangle => some 2
  | .tetrahedron => some 3
  | .other => none

/-- The simplices of dimension `k` of the elements, given by their vertices. -/
def Simplices (k : ℕ) (els : List (Finset ℕ)) : Set (Finset ℕ) := {S | S.card = k + 1 ∧ ∃ e ∈ els, S ⊆ e}

/-- The vertices of the elements of a mesh. -/
def elementSets {d : ℕ} (m : Mesh d) : List (Finset ℕ) := m.cells.map fun e => Finset.univ.image e.ids

/-! ## Proofs -/

theorem ncard_of_list {α : Type} {l : List α} {φ : α → Finset ℕ} {T : Set (Finset ℕ)} (h1 : l.Pairwise fun a b => φ a ≠ φ b) (h2 : ∀ a ∈ l, φ a ∈ T)
    (h3 : ∀ S ∈ T, ∃ a ∈ l, φ a = S) : T.ncard = l.length := by
  have hT : T = ↑(l.map φ).toFinset := by
    ext S
    simp only [List.coe_toFinset, Set.mem_ofPred_eq, List.mem_map]
    exact ⟨h3 S, by rintro ⟨a, ha, rfl⟩; exact h2 a ha⟩
  have hnd : (l.map φ).Nodup := List.pairwise_map.2 h1
  rw [hT, Set.ncard_coe_finset, List.toFinset_card_of_nodup hnd, List.length_map]

theorem ncard_of_numbering {K : Type} {idx : K → Option ℕ} {S : Set K} {n : ℕ} (h : IsNumbering idx S n) : S.ncard = n := by
  obtain ⟨h1, h2, h3⟩ := h
  choose f hf1 hf2 using h2
  refine Set.ncard_eq_of_bijective f (fun k hk => ?_) (fun i hi => hf1 i hi) (fun i j hi hj he => ?_)
  · obtain ⟨i, hi, hk'⟩ := h1 k hk
    exact ⟨i, hi, h3 _ (hf1 i hi) _ hk (by rw [hf2 i hi, hk'])⟩
  · have e1 := hf2 i hi
    have e2 := hf2 j hj
    rw [he, e2] at e1
    exact (Option.some.inj e1).symm

theorem coe_image {d : ℕ} (ids : Fin (d + 1) → ℕ) : ((Finset.univ.image ids : Finset ℕ) : Set ℕ) = Set.range ids := by
  simp

theorem card_ids {d : ℕ} {e : Cell d} (he : WellFormed e) : (Finset.univ.image e.ids).card = d + 1 := by
  rw [Finset.card_image_of_injective _ he.1, Finset.card_univ, Fintype.card_fin]

/-- The facet opposite to a slot. -/
def facetSet {d : ℕ} (e : Cell d) (s : Fin (d + 1)) : Finset ℕ := (Finset.univ.erase s).image e.ids

theorem coe_facetSet {d : ℕ} (e : Cell d) (s : Fin (d + 1)) : (facetSet e s : Set ℕ) = facetVertices e.ids s := by
  ext x
  simp [facetSet, facetVertices]

theorem card_facetSet {d : ℕ} {e : Cell d} (he : WellFormed e) (s : Fin (d + 1)) : (facetSet e s).card = d := by
  unfold facetSet
  rw [Finset.card_image_of_injective _ he.1, Finset.card_erase_of_mem (Finset.mem_univ _), Finset.card_univ, Fintype.card_fin]
  rfl

/-- A set with one vertex less than an element is one of its facets. -/
theorem exists_facet {d : ℕ} {e : Cell d} (he : WellFormed e) {S : Finset ℕ} (hc : S.card = d) (hS : S ⊆ Finset.univ.image e.ids) : ∃ s, facetSet e s = S := by
  have hlt : S.card < (Finset.univ.image e.ids).card := by rw [card_ids he, hc]; omega
  obtain ⟨x, hx, hxS⟩ := Finset.exists_mem_notMem_of_card_lt_card hlt
  obtain ⟨s, -, rfl⟩ := Finset.mem_image.1 hx
  refine ⟨s, (Finset.eq_of_subset_of_card_le (fun y hy => ?_) ?_).symm⟩
  · obtain ⟨t, -, rfl⟩ := Finset.mem_image.1 (hS hy)
    refine Finset.mem_image.2 ⟨t, Finset.mem_erase.2 ⟨?_, Finset.mem_univ _⟩, rfl⟩
    rintro rfl
    exact hxS hy
  · rw [card_facetSet he, hc]

theorem count_elements {d : ℕ} {m : Mesh d} (hm : Valid m) : (Simplices d (elementSets m)).ncard = m.cells.length := by
  refine ncard_of_list (φ := fun e => Finset.univ.image e.ids) ?_ ?_ ?_
  · refine hm.cellsOnce.imp fun {e e'} h he => h ?_
    rw [← coe_image, ← coe_image, he]
  · intro e he
    exact ⟨card_ids (hm.wf e he), _, List.mem_map_of_mem he, subset_rfl⟩
  · rintro S ⟨hc, e, he, hS⟩
    obtain ⟨c, hcm, rfl⟩ := List.mem_map.1 he
    exact ⟨c, hcm, (Finset.eq_of_subset_of_card_le hS (by rw [card_ids (hm.wf c hcm), hc])).symm⟩

theorem count_vertices {d : ℕ} {m : Mesh d} (hm : Valid m) (hv : ∀ v ∈ m.verts, ∃ e ∈ m.cells, ∃ s, e.ids s = v) :
    (Simplices 0 (elementSets m)).ncard = m.verts.length := by
  refine ncard_of_list (φ := fun v => {v}) ?_ ?_ ?_
  · exact hm.vertsOnce.imp fun h he => h (Finset.singleton_injective he)
  · intro v hvm
    obtain ⟨e, he, s, rfl⟩ := hv v hvm
    exact ⟨Finset.card_singleton _, _, List.mem_map_of_mem he, by simp⟩
  · rintro S ⟨hc, e, he, hS⟩
    obtain ⟨c, hcm, rfl⟩ := List.mem_map.1 he
    obtain ⟨v, rfl⟩ := Finset.card_eq_one.1 hc
    obtain ⟨s, -, rfl⟩ := Finset.mem_image.1 (hS (Finset.mem_singleton_self v))
    exact ⟨_, hm.vertsAll c hcm s, rfl⟩

theorem count_facets {d : ℕ} {m : Mesh (d + 1)} (hm : Valid m) : (Simplices d (elementSets m)).ncard = m.facets.length := by
  refine ncard_of_list (φ := fun f => facetSet f.1 f.2) ?_ ?_ ?_
  · refine hm.facetsOnce.imp fun {f f'} h he => h ?_
    unfold fv
    rw [← coe_facetSet, ← coe_facetSet, he]
  · intro f hf
    have hc := hm.facetCell f hf
    exact ⟨card_facetSet (hm.wf _ hc) _, _, List.mem_map_of_mem hc, Finset.image_subset_image (Finset.erase_subset _ _)⟩
  · rintro S ⟨hc, e, he, hS⟩
    obtain ⟨c, hcm, rfl⟩ := List.mem_map.1 he
    obtain ⟨s, rfl⟩ := exists_facet (hm.wf c hcm) hc hS
    obtain ⟨f, hf, hfv⟩ := hm.facetsAll c hcm s
    refine ⟨f, hf, Finset.coe_injective ?_⟩
    rw [coe_facetSet, coe_facetSet]
    exact hfv

theorem count_edges {m : Mesh 3} (hm : Valid m) {edges : List (Cell 3 × Fin 4 × Fin 4)} (hc : ∀ f ∈ edges, f.1 ∈ m.cells ∧ f.2.1 ≠ f.2.2)
    (honce : edges.Pairwise (fun f f' => ({f.1.ids f.2.1, f.1.ids f.2.2} : Set ℕ) ≠ {f'.1.ids f'.2.1, f'.1.ids f'.2.2}))
    (hall : ∀ e ∈ m.cells, ∀ i j, i ≠ j → ∃ f ∈ edges, ({f.1.ids f.2.1, f.1.ids f.2.2} : Set ℕ) = {e.ids i, e.ids j}) :
    (Simplices 1 (elementSets m)).ncard = edges.length := by
  refine ncard_of_list (φ := fun f => {f.1.ids f.2.1, f.1.ids f.2.2}) ?_ ?_ ?_
  · refine honce.imp fun {f f'} h he => h ?_
    have := congrArg (fun S : Finset ℕ => (S : Set ℕ)) he
    simpa using this
  · intro f hf
    obtain ⟨h1, h2⟩ := hc f hf
    refine ⟨Finset.card_pair fun he => h2 ((hm.wf _ h1).1 he), _, List.mem_map_of_mem h1, ?_⟩
    intro x hx
    simp only [Finset.mem_insert, Finset.mem_singleton] at hx
    rcases hx with rfl | rfl <;> simp
  · rintro S ⟨hc', e, he, hS⟩
    obtain ⟨c, hcm, rfl⟩ := List.mem_map.1 he
    obtain ⟨x, y, hxy, rfl⟩ := Finset.card_eq_two.1 hc'
    obtain ⟨i, -, rfl⟩ := Finset.mem_image.1 (hS (show x ∈ ({x, y} : Finset ℕ) by simp))
    obtain ⟨j, -, rfl⟩ := Finset.mem_image.1 (hS (show y ∈ ({c.ids i, y} : Finset ℕ) by simp))
    obtain ⟨f, hf, he⟩ := hall c hcm i j fun h => hxy (by rw [h])
    refine ⟨f, hf, Finset.coe_injective ?_⟩
    simpa using he

/-- **C223** In 2D, the size for the type of simplices of dimension `k` is the number of simplices of dimension `k` of the grid. -/
theorem C223_plane (old : Indices) {m : Mesh 2} (hm : Valid m) (hv : ∀ v ∈ m.verts, ∃ e ∈ m.cells, ∃ s, e.ids s = v) {s : Indices} (hs : update old m = some s)
    {t : GeomType} {k : ℕ} (ht : t.dim = some k) (hk : k ≤ 2) : sizeOfType 2 (sizes2 s) t = some (Simplices k (elementSets m)).ncard := by
  have h1 := (C05_elements (Or.inl rfl) old hm hs).1
  have h2 := (C05_vertices (Or.inl rfl) old hm hs).1
  obtain ⟨s', hs', h3, -⟩ := C05_facets (Or.inl rfl) old hm
  rw [hs] at hs'
  cases hs'
  cases t <;> simp only [GeomType.dim, Option.some.injEq, reduceCtorEq] at ht <;> subst ht
  · rw [count_vertices hm hv, ← h2]; rfl
  · rw [count_facets hm, ← h3]; rfl
  · rw [count_elements hm, ← h1]; rfl
  · omega

/-- **C223** The same in 3D, for all types of simplices. -/
theorem C223_space (old : Indices) {m : Mesh 3} (hm : Valid m) (hv : ∀ v ∈ m.verts, ∃ e ∈ m.cells, ∃ s, e.ids s = v) {s : Indices} (hs : update old m = some s)
    {edges : List (Cell 3 × Fin 4 × Fin 4)} (hc : ∀ f ∈ edges, f.1 ∈ m.cells ∧ f.2.1 ≠ f.2.2)
    (honce : edges.Pairwise (fun f f' => ({f.1.ids f.2.1, f.1.ids f.2.2} : Set ℕ) ≠ {f'.1.ids f'.2.1, f'.1.ids f'.2.2}))
    (hall : ∀ e ∈ m.cells, ∀ i j, i ≠ j → ∃ f ∈ edges, ({f.1.ids f.2.1, f.1.ids f.2.2} : Set ℕ) = {e.ids i, e.ids j})
    {r : (List ℕ → Option ℕ) × ℕ} (hr : updateEdges edges = some r) {t : GeomType} {k : ℕ} (ht : t.dim = some k) :
    sizeOfType 3 (sizes3 s r) t = some (Simplices k (elementSets m)).ncard := by
  have h1 := (C05_elements (Or.inr rfl) old hm hs).1
  have h2 := (C05_vertices (Or.inr rfl) old hm hs).1
  obtain ⟨s', hs', h3, -⟩ := C05_facets (Or.inr rfl) old hm
  rw [hs] at hs'
  cases hs'
  obtain ⟨r', hr', h4, -⟩ := C05_edges m hm edges hc honce hall
  rw [hr] at hr'
  cases hr'
  cases t <;> simp only [GeomType.dim, Option.some.injEq, reduceCtorEq] at ht <;> subst ht
  · rw [count_vertices hm hv, ← h2]; rfl
  · rw [count_edges hm hc honce hall, ← h4]; rfl
  · rw [count_facets hm, ← h3]; rfl
  · rw [count_elements hm, ← h1]; rfl

/-- **C223** The same for the interface grid. -/
theorem C223_interface {d : ℕ} (hd : d = 2 ∨ d = 3) {els : List (List ℕ)} (hE : InterfaceIndexSet.Elements d els) {s : InterfaceIndexSet.State}
    (hs : InterfaceIndexSet.update d els = some s) {t : GeomType} {k : ℕ} (ht : t.dim = some k) (hk : k < d) :
    isizeOfType (d - 1) (isizes d s) t = some (Simplices k (els.map List.toFinset)).ncard := by
  have cardE : ∀ e ∈ els, e.toFinset.card = d := fun e he => by rw [List.toFinset_card_of_nodup (hE.nodup e he), hE.length e he]
  have hel : (Simplices (d - 1) (els.map List.toFinset)).ncard = s.elementCount := by
    obtain ⟨s', hs', h1, -⟩ := InterfaceIndexSet.C22_elements hd els hE
    rw [hs] at hs'
    cases hs'
    rw [h1]
    refine ncard_of_list (φ := List.toFinset) ?_ ?_ ?_
    · refine hE.distinct.imp_of_mem fun {e f} he hf h heq => h ?_
      exact List.perm_of_nodup_nodup_toFinset_eq (hE.nodup e he) (hE.nodup f hf) heq
    · intro e he
      exact ⟨by rw [cardE e he]; omega, _, List.mem_map_of_mem he, subset_rfl⟩
    · rintro S ⟨hc, e, he, hS⟩
      obtain ⟨c, hcm, rfl⟩ := List.mem_map.1 he
      exact ⟨c, hcm, (Finset.eq_of_subset_of_card_le hS (by rw [cardE c hcm, hc]; omega)).symm⟩
  have hvt : (Simplices 0 (els.map List.toFinset)).ncard = s.vertexCount := by
    rw [← ncard_of_numbering (InterfaceIndexSet.C22_vertices hd els hE hs).1, ← Set.ncard_image_of_injective _ (Finset.singleton_injective (α := ℕ))]
    congr 1
    ext S
    simp only [Simplices, Set.mem_ofPred_eq, Set.mem_image, List.mem_map]
    constructor
    · rintro ⟨hc, -, ⟨e, he, rfl⟩, hS⟩
      obtain ⟨v, rfl⟩ := Finset.card_eq_one.1 hc
      exact ⟨v, ⟨e, he, by simpa using hS⟩, rfl⟩
    · rintro ⟨v, ⟨e, he, hv⟩, rfl⟩
      exact ⟨Finset.card_singleton v, _, ⟨e, he, rfl⟩, by simpa using hv⟩
  have hed : d = 3 → (Simplices 1 (els.map List.toFinset)).ncard = s.edgeCount := by
    rintro rfl
    rw [← ncard_of_numbering (InterfaceIndexSet.C22_edges els hE hs).1]
    refine (Set.ncard_congr (fun p _ => {p.1, p.2}) ?_ ?_ ?_).symm
    · rintro ⟨u, v⟩ ⟨huv, e, he, hu, hv⟩
      refine ⟨Finset.card_pair huv.ne, _, List.mem_map_of_mem he, ?_⟩
      intro x hx
      simp only [Finset.mem_insert, Finset.mem_singleton] at hx
      rcases hx with rfl | rfl <;> simpa
    · rintro ⟨u, v⟩ ⟨u', v'⟩ ⟨huv, -⟩ ⟨huv', -⟩ he
      simp only at huv huv' he
      have h1 : u ∈ ({u', v'} : Finset ℕ) := by rw [← he]; simp
      have h2 : v ∈ ({u', v'} : Finset ℕ) := by rw [← he]; simp
      simp only [Finset.mem_insert, Finset.mem_singleton] at h1 h2
      rcases h1 with rfl | rfl <;> rcases h2 with rfl | rfl <;> first | rfl | omega
    · rintro S ⟨hc, e, he, hS⟩
      obtain ⟨c, hcm, rfl⟩ := List.mem_map.1 he
      obtain ⟨x, y, hxy, rfl⟩ := Finset.card_eq_two.1 hc
      have hx : x ∈ c := by simpa using hS (show x ∈ ({x, y} : Finset ℕ) by simp)
      have hy : y ∈ c := by simpa using hS (show y ∈ ({x, y} : Finset ℕ) by simp)
      rcases Nat.lt_or_gt_of_ne hxy with h | h
      · exact ⟨(x, y), ⟨h, c, hcm, hx, hy⟩, rfl⟩
      · exact ⟨(y, x), ⟨h, c, hcm, hy, hx⟩, Finset.pair_comm _ _⟩
  rcases hd with rfl | rfl <;> cases t <;> simp only [GeomType.dim, Option.some.injEq, reduceCtorEq] at ht <;> subst ht
  · rw [hvt]; rfl
  · rw [show (1 : ℕ) = 2 - 1 from rfl, hel]; rfl
  · omega
  · omega
  · rw [hvt]; rfl
  · rw [hed rfl]; rfl
  · rw [show (2 : ℕ) = 3 - 1 from rfl, hel]; rfl
  · omega

/-- **C223** The entities of codimension `c` have exactly one type, the simplices of dimension `dim - c`. -/
theorem C223_types {dim c : ℕ} (hd : dim ≤ 3) (hc : c ≤ dim) : ∃ t, types dim c = some t ∧ t.dim = some (dim - c) := by
  have : dim - c = 0 ∨ dim - c = 1 ∨ dim - c = 2 ∨ dim - c = 3 := by omega
  unfold types
  rw [show (dim : ℤ) - (c : ℤ) = ((dim - c : ℕ) : ℤ) by omega]
  rcases this with h | h | h | h <;> rw [h]
  · exact ⟨.vertex, by simp, rfl⟩
  · exact ⟨.line, by simp, rfl⟩
  · exact ⟨.triangle, by simp, rfl⟩
  · exact ⟨.tetrahedron, by simp, rfl⟩

/-- **C223** There are no entities of other types. -/
theorem C223_other (dim : ℕ) (sizes : List ℕ) : sizeOfType dim sizes .other = some 0 ∧ isizeOfType dim sizes .other = some 0 ∧ isizeOfType dim sizes .tetrahedron = some 0 := ⟨rfl, rfl, rfl⟩

/-- **C224** Refuted: asking a 2D grid for the number of tetrahedra reads `sizeOfCodim_[-1]`. -/
theorem C224_tetrahedra_false (sizes : List ℕ) : sizeOfType 2 sizes .tetrahedron = none := rfl

/-- **C224** Refuted: asking the interface of a 2D grid for the number of triangles reads `sizeOfCodim_[-1]`. -/
theorem C224_triangles_false (sizes : List ℕ) : isizeOfType 1 sizes .triangle = none := rfl

/-- **C224** Refuted: a copy of the leaf index set throws for every facet. -/
theorem C224_copy_false {d : ℕ} (hd : d = 2 ∨ d = 3) (old : Indices) {m : Mesh d} (hm : Valid m) :
    ∃ s, update old m = some s ∧ ∀ e ∈ m.cells, ∀ t, (∃ i, indexFacet s e t = some i) ∧ indexFacet s.copy e t = none := by
  obtain ⟨s, hs, -, h, -⟩ := C05_facets hd old hm
  refine ⟨s, hs, fun e he t => ?_⟩
  obtain ⟨i, -, hi⟩ := h e he t
  refine ⟨⟨i, hi⟩, ?_⟩
  unfold indexFacet Indices.copy
  cases facetId e t <;> rfl

/-- **C224** What holds: a copy has the same sizes and the same indices of elements and vertices. -/
theorem C224_copy_partial (s : Indices) : sizes2 s.copy = sizes2 s ∧ (∀ {d : ℕ} (e : Cell d), indexElem s.copy e = indexElem s e) ∧ ∀ v, indexVert s.copy v = indexVert s v :=
  ⟨rfl, fun _ => rfl, fun _ => rfl⟩

/-! ## Examples -/

/-- The mesh of two triangles meets the hypotheses of the theorem in 2D. -/
example (old : Indices) : ∃ s, update old exMesh = some s ∧ sizeOfType 2 (sizes2 s) .triangle = some 2 ∧ sizeOfType 2 (sizes2 s) .line = some 5 ∧ sizeOfType 2 (sizes2 s) .vertex = some 4 := by
  obtain ⟨s, hs, h3, -⟩ := C05_facets (Or.inl rfl) old exMesh_valid
  have h1 := (C05_elements (Or.inl rfl) old exMesh_valid hs).1
  have h2 := (C05_vertices (Or.inl rfl) old exMesh_valid hs).1
  refine ⟨s, hs, ?_, ?_, ?_⟩
  · change some s.sizeElem = _
    rw [h1]; rfl
  · change some s.sizeFacet = _
    rw [h3]; rfl
  · change some s.sizeVert = _
    rw [h2]; rfl

example : ∀ v ∈ exMesh.verts, ∃ e ∈ exMesh.cells, ∃ s, e.ids s = v := by decide

/-- Two triangles of an interface in 3D have five edges. -/
example : (InterfaceIndexSet.update 3 [[0, 1, 2], [1, 2, 3]]).map (fun s => isizeOfType 2 (isizes 3 s) .line) = some (some 5) := by decide

end Verif.IndexSet
