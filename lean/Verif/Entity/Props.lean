import Verif.Entity.Model
import Verif.InterfaceIter.Props
import Verif.Factory.SegProps
import Mathlib.Tactic.LinearCombination
import Mathlib.Tactic.FieldSimp
import Mathlib.Tactic.Ring
import Mathlib.Tactic.Linarith
import Mathlib.Algebra.Order.Ring.Rat
import Mathlib.Algebra.Field.Rat

/-!
# Entity objects: comparison, copies, seeds, geometry in the father (properties)

Specification: two facets are the same if they have the same vertices (`Tri.facet`), two elements are the same if they have the
same vertices.
-/

namespace Verif.Entity

open Tri Factory InterfaceIter

set_option linter.unusedSectionVars false

variable {d : Nat}

/-- Two cells have the same vertices. -/
def SameVertices (c c' : Fin (d + 1) → Option Nat) : Prop := ∀ v, (∃ i, c i = v) ↔ ∃ i, c' i = v

/-- The two ends of an edge of a tetrahedron. -/
def ends (c : Fin 4 → Option Nat) (i j : Fin 4) : Finset (Option Nat) := {c i, c j}

/-! ## C92: comparison -/

theorem mirror_eq {T : Tri d} (hT : T.Valid) {f : Nat × Fin (d + 1)} {c} (hc : T.cells[f.1]? = some c) {m : Nat}
    (hn : T.nbr f.1 f.2 = some m) :
    ∃ c' j, T.cells[m]? = some c' ∧ facetOf c' j = facetOf c f.2 ∧ mirror T f = some (m, j) := by
  obtain ⟨-, c', i', hc', hf⟩ := (hT.nbr_iff f.1 f.2 c hc m).1 hn
  refine ⟨c', i', hc', hf, ?_⟩
  unfold mirror
  rw [hn]
  simp only
  rw [find_facet hT hc' (F := T.facet f.1 f.2) (j := i') (by rw [facet_eq hc, hf])]

theorem mirror_iff {T : Tri d} (hT : T.Valid) {a b : Nat × Fin (d + 1)} {ca cb} (ha : T.cells[a.1]? = some ca) (hb : T.cells[b.1]? = some cb)
    {m : Nat} (hn : T.nbr a.1 a.2 = some m) :
    ∃ x, mirror T a = some x ∧ (a = b ∨ x = b ↔ T.facet a.1 a.2 = T.facet b.1 b.2) := by
  obtain ⟨c', j, hc', hf, hm⟩ := mirror_eq hT ha hn
  refine ⟨_, hm, ?_⟩
  rw [facet_eq ha, facet_eq hb]
  constructor
  · rintro (rfl | rfl)
    · rw [ha] at hb; cases hb; rfl
    · rw [hc'] at hb; cases hb; exact hf.symm
  · intro h
    rcases hT.two ha hn hb h.symm with ⟨h1, h2⟩ | h1
    · left; exact (Prod.ext h1 h2).symm
    · right
      obtain ⟨b1, b2⟩ := b
      simp only at h1 hb h
      subst h1
      rw [hc'] at hb
      cases hb
      rw [facetOf_inj' (hT.inj _ (List.mem_of_getElem? hc')) (hf.trans h)]

/-- **C92** Edges of a 2D grid, obtained in any way (from either of the two triangles), are equal iff they have the same vertices. -/
theorem C92_edges_2d (T : Tri 2) (hT : T.Valid) (a b : Nat × Fin 3) (ha : a.1 < T.cells.length) (hb : b.1 < T.cells.length)
    (hn : (T.nbr a.1 a.2).isSome) : edgeEquals2 T a b = some (decide (T.facet a.1 a.2 = T.facet b.1 b.2)) := by
  obtain ⟨m, hm⟩ := Option.isSome_iff_exists.1 hn
  obtain ⟨x, hx, hiff⟩ := mirror_iff hT (List.getElem?_eq_getElem ha) (List.getElem?_eq_getElem hb) hm
  unfold edgeEquals2
  rw [hx]
  by_cases h : a = b
  · rw [if_pos h, decide_eq_true (hiff.1 (Or.inl h))]
  · rw [if_neg h, Option.map_some]
    congr 1
    exact decide_eq_decide.2 ⟨fun e => hiff.1 (Or.inr e), fun e => (hiff.2 e).resolve_left h⟩

/-- **C92** The same for facets of a 3D grid. -/
theorem C92_facets_3d (T : Tri 3) (hT : T.Valid) (a b : Nat × Fin 4) (ha : a.1 < T.cells.length) (hb : b.1 < T.cells.length)
    (hn : (T.nbr b.1 b.2).isSome) : facetEquals3 T a b = some (decide (T.facet a.1 a.2 = T.facet b.1 b.2)) := by
  obtain ⟨m, hm⟩ := Option.isSome_iff_exists.1 hn
  obtain ⟨x, hx, hiff⟩ := mirror_iff hT (List.getElem?_eq_getElem hb) (List.getElem?_eq_getElem ha) hm
  unfold facetEquals3
  rw [hx]
  by_cases h : a = b
  · rw [if_pos h, decide_eq_true (hiff.1 (Or.inl h.symm)).symm]
  · rw [if_neg h, Option.map_some]
    congr 1
    exact decide_eq_decide.2 ⟨fun e => (hiff.1 (Or.inr e.symm)).symm, fun e => ((hiff.2 e.symm).resolve_left (Ne.symm h)).symm⟩

theorem pair_eq {x y z w : Option Nat} (h : ({x, y} : Finset (Option Nat)) = {z, w}) : (x = z ∧ y = w) ∨ (x = w ∧ y = z) := by
  have m1 : x ∈ ({z, w} : Finset (Option Nat)) := by rw [← h]; simp
  have m2 : y ∈ ({z, w} : Finset (Option Nat)) := by rw [← h]; simp
  have m3 : z ∈ ({x, y} : Finset (Option Nat)) := by rw [h]; simp
  have m4 : w ∈ ({x, y} : Finset (Option Nat)) := by rw [h]; simp
  simp only [Finset.mem_insert, Finset.mem_singleton] at m1 m2 m3 m4
  rcases m1 with rfl | rfl
  · left
    refine ⟨rfl, ?_⟩
    rcases m4 with e | e
    · rcases m2 with e2 | e2
      · rw [e2, e]
      · exact e2
    · exact e.symm
  · right
    refine ⟨rfl, ?_⟩
    rcases m3 with e | e
    · rcases m2 with e2 | e2
      · exact e2
      · rw [e2, e]
    · exact e.symm

/-- **C92** Edges of a 3D grid, and edges of the interface of a 3D grid, given by a cell and two different vertices of it: equal iff
they have the same ends. -/
theorem C92_edges_3d (T : Tri 3) (a b : Nat × Fin 4 × Fin 4) (ca cb) (ha : T.cells[a.1]? = some ca) (hb : T.cells[b.1]? = some cb) :
    edgeEquals3 T a b = some (decide (ends ca a.2.1 a.2.2 = ends cb b.2.1 b.2.2)) := by
  unfold edgeEquals3
  rw [ha, hb]
  simp only
  congr 1
  rw [decide_eq_decide]
  unfold ends
  constructor
  · rintro (⟨h1, h2⟩ | ⟨h1, h2⟩)
    · rw [h1, h2]
    · rw [h1, h2, Finset.pair_comm]
  · intro h
    generalize ca a.2.1 = x, ca a.2.2 = y, cb b.2.1 = z, cb b.2.2 = w at h
    exact pair_eq h

/-- **C92** Elements of the leaf grid are equal iff they have the same vertices. Assumed: a facet of the element has a neighbour with another
vertex (no triangulation of a region has two elements with the same vertices). -/
theorem C92_elements {K : Type} (T : Tri d) (hT : T.Valid) (h h' : Nat) (c c') (hc : T.cells[h]? = some c) (hc' : T.cells[h']? = some c')
    (hn : ∃ i m cm, T.nbr h i = some m ∧ T.cells[m]? = some cm ∧ ¬ SameVertices cm c) :
    (Elem.leaf h : Elem K).equals (Elem.leaf h') = true ↔ SameVertices c c' := by
  unfold Elem.equals Elem.leaf
  simp only [decide_eq_true_eq, Option.some.injEq]
  constructor
  · rintro rfl
    rw [hc] at hc'
    cases hc'
    exact fun v => Iff.rfl
  · intro hs
    by_contra hne
    obtain ⟨i, m, cm, hm, hcm, hns⟩ := hn
    obtain ⟨i', hi'⟩ := (hs (c i)).1 ⟨i, rfl⟩
    have hf : facetOf c' i' = facetOf c i := by
      ext v
      have ic := hT.inj _ (List.mem_of_getElem? hc)
      have ic' := hT.inj _ (List.mem_of_getElem? hc')
      simp only [facetOf, Finset.mem_image, Finset.mem_erase, Finset.mem_univ, and_true]
      constructor
      · rintro ⟨k, hk, rfl⟩
        obtain ⟨k', hk'⟩ := (hs (c' k)).2 ⟨k, rfl⟩
        refine ⟨k', ?_, hk'⟩
        rintro rfl
        exact hk (ic' (hk'.symm.trans hi'.symm))
      · rintro ⟨k, hk, rfl⟩
        obtain ⟨k', hk'⟩ := (hs (c k)).1 ⟨k, rfl⟩
        refine ⟨k', ?_, hk'⟩
        rintro rfl
        exact hk (ic (hk'.symm.trans hi'))
    have := (hT.nbr_iff h i c hc h').2 ⟨fun e => hne e.symm, c', i', hc', hf⟩
    rw [hm] at this
    cases this
    rw [hcm] at hc'
    cases hc'
    exact hns fun v => (hs v).symm

/-- **C142** (part) Interface elements made from any side are equal iff they are the same facet, if the insertion numbers of the two bulk
elements differ. -/
theorem C142_interface_partial (g : Grid d) (hT : g.tri.Valid) (a b : Nat × Fin (d + 1)) (ha : a.1 < g.tri.cells.length)
    (hb : b.1 < g.tri.cells.length) (hins : a.1 ≠ b.1 → g.ins a.1 ≠ g.ins b.1) :
    interfaceEquals g a b = true ↔ g.tri.facet a.1 a.2 = g.tri.facet b.1 b.2 := by
  have hca := List.getElem?_eq_getElem ha
  have hcb := List.getElem?_eq_getElem hb
  unfold interfaceEquals
  rw [decide_eq_true_eq]
  constructor
  · intro h
    rw [← C55_facet g hT a.1 a.2 _ hca, h, C55_facet g hT b.1 b.2 _ hcb]
  · intro h
    rw [facet_eq hca, facet_eq hcb] at h
    by_cases e : a.1 = b.1
    · obtain ⟨a1, a2⟩ := a
      obtain ⟨b1, b2⟩ := b
      simp only at e
      subst e
      have := facetOf_inj' (hT.inj _ (List.mem_of_getElem? hca)) h
      simp only at this
      rw [this]
    · exact C55_same g hT a.1 b.1 a.2 b.2 _ _ hca hcb e h.symm (hins e)

/-- **C142** is false for interface elements if the insertion numbers are equal (adaptation does not set them): the same segment seen
from the two sides is unequal. -/
theorem C142_interface_false : exTri.Valid ∧ exTri.facet 0 0 = exTri.facet 1 0 ∧
    interfaceEquals { tri := exTri, ins := fun _ => 7, segs := {{some 1, some 2}} } (0, 0) (1, 0) = false := by
  refine ⟨exTri_valid, by decide, by decide⟩

/-- **C142** is false for the triangles of a cut set, which the data handle gets during adaptation: any two of them are equal and have the
same id, wherever they are. -/
theorem C142_middle_false {K : Type} (T : Tri d) (c c' : Corners K) :
    (Elem.middle c).equals (Elem.middle c') = true ∧
    ((Elem.middle c).getId T).map (·.2) = ((Elem.middle c').getId T).map (·.2) ∧ ((Elem.middle c).getId T).isSome := by
  refine ⟨rfl, rfl, rfl⟩

/-- The two triangles of `exTri` after the insertion of vertex 4 into the common edge. CGAL keeps the cell 0 and replaces one of its
vertices. -/
def splitMesh : List (Fin 3 → Nat) := [![0, 1, 4], ![3, 2, 4], ![0, 4, 2], ![3, 4, 1]]

def splitTri : Tri 2 := ofTds (buildTds scheme2 splitMesh (createElements scheme2 splitMesh).st.fmap)

theorem splitMesh_mesh : Mesh splitMesh := by
  apply Mesh.of_check <;> decide +kernel

theorem splitTri_valid : splitTri.Valid := ofTds_valid scheme2_valid splitMesh_mesh _ (List.Perm.refl _)

/-- **C142** is false for old elements, which the data handle gets as fathers: the comparison only looks at the handle, which is that of a
new element by now. Here the old element has the vertices 0, 1, 2 and the new one 0, 1, 4. -/
theorem C142_old_false : exTri.Valid ∧ splitTri.Valid ∧ ∀ (K : Type) (corners : Nat → Corners K),
    ∃ old : Elem K, Elem.old exTri corners 0 = some old ∧ old.equals (Elem.leaf 0) = true ∧
      (old.getId splitTri).map (·.2) = some [0, 1, 2] ∧ ((Elem.leaf 0 : Elem K).getId splitTri).map (·.2) = some [0, 1, 4] := by
  refine ⟨exTri_valid, splitTri_valid, fun K corners => ?_⟩
  have e1 : cellId exTri 0 = some [0, 1, 2] := by decide +kernel
  have e2 : cellId splitTri 0 = some [0, 1, 4] := by decide +kernel
  refine ⟨⟨some 0, some [0, 1, 2], false, some (corners 0), none⟩, ?_, rfl, rfl, ?_⟩
  · simp [Elem.old, e1]
  · simp [Elem.getId, Elem.leaf, e2]

/-- Non-vacuity: the common edge of the two triangles of `exTri` seen from both sides, and another edge; the assumption of
`C92_elements`. -/
example : exTri.Valid ∧ (exTri.nbr 0 0).isSome ∧ edgeEquals2 exTri (0, 0) (1, 0) = some true ∧ edgeEquals2 exTri (0, 0) (1, 1) = some false :=
  ⟨exTri_valid, by decide, by decide, by decide⟩

/-- The ids of a facet determine its vertices. -/
theorem mem_facetIds {T : Tri d} {f : Nat × Fin (d + 1)} {c} (hc : T.cells[f.1]? = some c) (v : Nat) :
    v ∈ RefElem.sortIds (((List.finRange (d + 1)).filter (· ≠ f.2)).filterMap c) ↔ some v ∈ T.facet f.1 f.2 := by
  rw [(RefElem.sortIds_perm _).mem_iff, facet_eq hc]
  simp [facetOf]

theorem facetIds_eq_iff {T : Tri d} (hT : T.Valid) {a b : Nat × Fin (d + 1)} {ca cb} (hca : T.cells[a.1]? = some ca)
    (hcb : T.cells[b.1]? = some cb) (fa : none ∉ T.facet a.1 a.2) (fb : none ∉ T.facet b.1 b.2) :
    T.facet a.1 a.2 = T.facet b.1 b.2 ↔ RefElem.sortIds (((List.finRange (d + 1)).filter (· ≠ a.2)).filterMap ca) =
      RefElem.sortIds (((List.finRange (d + 1)).filter (· ≠ b.2)).filterMap cb) := by
  have nd : ∀ (f : Nat × Fin (d + 1)) (c), T.cells[f.1]? = some c → (((List.finRange (d + 1)).filter (· ≠ f.2)).filterMap c).Nodup := by
    intro f c hc
    apply List.Nodup.filterMap
    · intro i j v hi hj
      have hi' : c i = some v := hi
      have hj' : c j = some v := hj
      exact hT.inj _ (List.mem_of_getElem? hc) (hi'.trans hj'.symm)
    · exact (List.nodup_finRange (d + 1)).filter _
  constructor
  · intro h
    refine (Segments.sort_eq_iff _ _).2 ((List.perm_ext_iff_of_nodup (nd a _ hca) (nd b _ hcb)).2 fun v => ?_)
    have h1 := mem_facetIds hca v
    have h2 := mem_facetIds hcb v
    rw [(RefElem.sortIds_perm _).mem_iff] at h1 h2
    rw [h1, h2, h]
  · intro h
    ext v
    cases v with
    | none => exact ⟨fun x => absurd x fa, fun x => absurd x fb⟩
    | some v => rw [← mem_facetIds hca, ← mem_facetIds hcb, h]

/-- **C92** In 2D two edges are equal iff their ids are equal. -/
theorem C92_ids_2d (T : Tri 2) (hT : T.Valid) (a b : Nat × Fin 3) (ha : a.1 < T.cells.length) (hb : b.1 < T.cells.length)
    (hn : (T.nbr a.1 a.2).isSome) (fa : none ∉ T.facet a.1 a.2) (fb : none ∉ T.facet b.1 b.2) :
    ∃ ia ib, (Facet.getId T ⟨a, none⟩).map (·.2) = some ia ∧ (Facet.getId T ⟨b, none⟩).map (·.2) = some ib ∧
      (edgeEquals2 T a b = some true ↔ ia = ib) := by
  have hca := List.getElem?_eq_getElem ha
  have hcb := List.getElem?_eq_getElem hb
  refine ⟨_, _, by simp only [Facet.getId, hca, Option.map_some]; rfl, by simp only [Facet.getId, hcb, Option.map_some]; rfl, ?_⟩
  rw [C92_edges_2d T hT a b ha hb hn, Option.some.injEq, decide_eq_true_eq]
  exact facetIds_eq_iff hT hca hcb fa fb

/-- **C92** In 3D two facets are equal iff their ids are equal. -/
theorem C92_ids_3d (T : Tri 3) (hT : T.Valid) (a b : Nat × Fin 4) (ha : a.1 < T.cells.length) (hb : b.1 < T.cells.length)
    (hn : (T.nbr b.1 b.2).isSome) (fa : none ∉ T.facet a.1 a.2) (fb : none ∉ T.facet b.1 b.2) :
    ∃ ia ib, (Facet.getId T ⟨a, none⟩).map (·.2) = some ia ∧ (Facet.getId T ⟨b, none⟩).map (·.2) = some ib ∧
      (facetEquals3 T a b = some true ↔ ia = ib) := by
  have hca := List.getElem?_eq_getElem ha
  have hcb := List.getElem?_eq_getElem hb
  refine ⟨_, _, by simp only [Facet.getId, hca, Option.map_some]; rfl, by simp only [Facet.getId, hcb, Option.map_some]; rfl, ?_⟩
  rw [C92_facets_3d T hT a b ha hb hn, Option.some.injEq, decide_eq_true_eq]
  exact facetIds_eq_iff hT hca hcb fa fb

/-! ## C93: copies and seeds -/

/-- **C93** An element of the leaf grid and the entity made from its seed are equal, have the same id and the same geometry, at any time
(`T`, `corners`: the grid at that time). The id was not asked for yet, or it was when the element had its present vertices. -/
theorem C93_seed {K : Type} (T : Tri d) (corners : Nat → Corners K) (e : Elem K) (h : Nat) (hh : e.host = some h) (hl : e.isLeaf = true)
    (hid : e.id = none ∨ e.id = cellId T h) (hex : h < T.cells.length) :
    seedValid e.seed = true ∧ ∃ e', fromSeed e.seed = some e' ∧ e'.equals e = true ∧ e'.geometry corners = e.geometry corners ∧
      ∃ i, (e'.getId T).map (·.2) = some i ∧ (e.getId T).map (·.2) = some i := by
  have hc : ∃ i, cellId T h = some i := by
    unfold cellId
    rw [List.getElem?_eq_getElem hex]
    exact ⟨_, rfl⟩
  obtain ⟨i, hi⟩ := hc
  refine ⟨by simp [seedValid, Elem.seed, hh], Elem.leaf h, by simp [fromSeed, Elem.seed, hh], by simp [Elem.equals, Elem.leaf, hh],
    by simp [Elem.geometry, Elem.leaf, hh, hl], i, by simp [Elem.getId, Elem.leaf, hi], ?_⟩
  rcases hid with hid | hid
  · simp [Elem.getId, hid, hh, hi]
  · simp [Elem.getId, hid, hi]

/-- **C93** The same for facets: equality is by the handle, which the seed keeps; the id is that of a facet with the same vertices. -/
theorem C93_facet_seed (T : Tri d) (o : Facet d) (hid : o.id = none ∨ o.id = ((Facet.new o.host).getId T).map (·.2)) :
    o.fromSeed.host = o.host ∧ (o.fromSeed.getId T).map (·.2) = (o.getId T).map (·.2) := by
  refine ⟨rfl, ?_⟩
  obtain ⟨h, i⟩ := o
  rcases hid with hid | hid
  · simp only at hid
    subst hid
    rfl
  · simp only [Facet.fromSeed] at hid ⊢
    rw [← hid]
    cases i with
    | none => 
      simp only [Facet.new] at hid
      simp only [← hid]
    | some i => rfl

/-- **C93** The seed of an interface element gives the same interface element: its handle is the stored one, not that of the other side. -/
theorem C93_interface_seed (g : Grid d) (hT : g.tri.Valid) (h : Nat) (i : Fin (d + 1)) (hh : h < g.tri.cells.length) :
    canonical g (canonical g h i).1 (canonical g h i).2 = canonical g h i := by
  have hc := List.getElem?_eq_getElem hh
  cases hn : g.tri.nbr h i with
  | none =>
    have e : canonical g h i = (h, i) := by unfold canonical; rw [hn]
    rw [e]
    exact e
  | some m =>
    by_cases hlt : g.ins h > g.ins m
    · obtain ⟨hne, c', i', hc', hf⟩ := (hT.nbr_iff h i _ hc m).1 hn
      have e : canonical g h i = (m, i') := by
        unfold canonical
        rw [hn]
        simp only
        rw [if_pos hlt, find_facet hT hc' (F := g.tri.facet h i) (j := i') (by rw [facet_eq hc, hf])]
      rw [e]
      simp only
      have hn' : g.tri.nbr m i' = some h := (hT.nbr_iff m i' _ hc' h).2 ⟨hne.symm, _, i, hc, hf.symm⟩
      unfold canonical
      rw [hn']
      simp only
      rw [if_neg (by omega)]
    · have e : canonical g h i = (h, i) := by
        unfold canonical
        rw [hn]
        simp only
        rw [if_neg hlt]
      rw [e]
      exact e

/-- **C93** `isValid` of a default seed and of the seed of a triangle of a cut set is false. -/
theorem C93_invalid {K : Type} (c : Corners K) : seedValid none = false ∧ seedValid (Elem.middle c).seed = false := ⟨rfl, rfl⟩

/-- **C143** is false for old elements: the seed says that it is valid, but gives another element. -/
theorem C143_old_false : exTri.Valid ∧ splitTri.Valid ∧ ∀ (K : Type) (corners : Nat → Corners K),
    ∃ old e' : Elem K, Elem.old exTri corners 0 = some old ∧ seedValid old.seed = true ∧ fromSeed old.seed = some e' ∧
      (old.getId splitTri).map (·.2) = some [0, 1, 2] ∧ (e'.getId splitTri).map (·.2) = some [0, 1, 4] := by
  obtain ⟨h1, h2, h3⟩ := C142_old_false
  refine ⟨h1, h2, fun K corners => ?_⟩
  obtain ⟨old, ho, he, hi, hi'⟩ := h3 K corners
  have hh : old.host = some 0 := of_decide_eq_true he
  exact ⟨old, Elem.leaf 0, ho, by simp [Elem.seed, hh, seedValid], by simp [Elem.seed, hh, fromSeed], hi, hi'⟩

/-- **C93** A copy of an element (constructed or assigned) is equal to the original and has the same id, geometry and seed, at any time. -/
theorem C93_copy {K : Type} (T : Tri d) (corners : Nat → Corners K) (e : Elem K) (keep : Option (Corners K)) :
    (e.copy keep).equals e = true ∧ ((e.copy keep).getId T).map (·.2) = (e.getId T).map (·.2) ∧
      (e.copy keep).geometry corners = e.geometry corners ∧ (e.copy keep).seed = e.seed ∧ (e.copy keep).isLeaf = e.isLeaf := by
  refine ⟨by simp [Elem.equals, Elem.copy], ?_, rfl, rfl, rfl⟩
  obtain ⟨host, id, l, v, f⟩ := e
  cases id with
  | some i => rfl
  | none =>
    cases host with
    | none => rfl
    | some h => simp [Elem.copy, Elem.getId, Function.comp_def]

/-- **C143** (part) A copy-constructed facet, and an assigned one whose id was not asked for before, has the id of the original, if the
original has its present vertices since its id was asked for. -/
theorem C143_facet_copy_partial (T : Tri d) (o : Facet d) (hid : o.id = none ∨ o.id = ((Facet.new o.host).getId T).map (·.2)) :
    (o.copy none).host = o.host ∧ ((o.copy none).getId T).map (·.2) = (o.getId T).map (·.2) := C93_facet_seed T o hid

/-- **C143** is false for facets that are assigned: the target keeps the id it had before if it was asked for. Here `a` is the edge (1 2) of
the two triangles, `b` the edge (0 1); after `a = b` the edge is `b`, but the id is [1, 2]. -/
theorem C143_assign_false : exTri.Valid ∧ ∃ a : Facet 2, Facet.getId exTri (Facet.new (0, 0)) = some (a, [1, 2]) ∧
    (Facet.getId exTri (Facet.new (0, 2))).map (·.2) = some [0, 1] ∧
    (Facet.copy (Facet.new (0, 2) : Facet 2) a.id).host = (0, 2) ∧
    (Facet.getId exTri (Facet.copy (Facet.new (0, 2)) a.id)).map (·.2) = some [1, 2] := by
  refine ⟨exTri_valid, ⟨(0, 0), some [1, 2]⟩, ?_, ?_, rfl, rfl⟩
  · decide +kernel
  · decide +kernel

/-- Non-vacuity of `C93_seed`: the first element of the two triangles. -/
example : (0 : Nat) < exTri.cells.length ∧ cellId exTri 0 = some [0, 1, 2] := by decide +kernel

/-! ## C94: geometry in the father -/

section Field

variable {K : Type} [Field K]

/-- Twice the signed area of a triangle. -/
def det (c : Corners K) : K := (c.2.1.1 - c.1.1) * (c.2.2.2 - c.1.2) - (c.2.1.2 - c.1.2) * (c.2.2.1 - c.1.1)

theorem solve_normal (u1 u2 w1 w2 r1 r2 : K) (h : u1 * w2 - u2 * w1 ≠ 0) :
    let aa := u1 * u1 + u2 * u2
    let ab := u1 * w1 + u2 * w2
    let bb := w1 * w1 + w2 * w2
    let ra := u1 * r1 + u2 * r2
    let rb := w1 * r1 + w2 * r2
    (ra * bb - rb * ab) / (aa * bb - ab * ab) = (r1 * w2 - r2 * w1) / (u1 * w2 - u2 * w1) ∧
    (aa * rb - ab * ra) / (aa * bb - ab * ab) = (u1 * r2 - u2 * r1) / (u1 * w2 - u2 * w1) := by
  intro aa ab bb ra rb
  have hd : aa * bb - ab * ab = (u1 * w2 - u2 * w1) * (u1 * w2 - u2 * w1) := by ring
  rw [hd]
  constructor
  · rw [show ra * bb - rb * ab = (r1 * w2 - r2 * w1) * (u1 * w2 - u2 * w1) by ring, mul_div_mul_right _ _ h]
  · rw [show aa * rb - ab * ra = (u1 * r2 - u2 * r1) * (u1 * w2 - u2 * w1) by ring, mul_div_mul_right _ _ h]

theorem loc_eq (c : Corners K) (hc : det c ≠ 0) (x : K × K) :
    loc c x = (((x.1 - c.1.1) * (c.2.2.2 - c.1.2) - (x.2 - c.1.2) * (c.2.2.1 - c.1.1)) / det c,
      ((c.2.1.1 - c.1.1) * (x.2 - c.1.2) - (c.2.1.2 - c.1.2) * (x.1 - c.1.1)) / det c) := by
  obtain ⟨h1, h2⟩ := solve_normal (c.2.1.1 - c.1.1) (c.2.1.2 - c.1.2) (c.2.2.1 - c.1.1) (c.2.2.2 - c.1.2) (x.1 - c.1.1) (x.2 - c.1.2) hc
  exact Prod.ext h1 h2

theorem combine {D N1 N2 u w a x : K} (hD : D ≠ 0) (h : N1 * u + N2 * w = (x - a) * D) : a + N1 / D * u + N2 / D * w = x := by
  rw [div_mul_eq_mul_div, div_mul_eq_mul_div, add_assoc, ← add_div, h, mul_div_cancel_right₀ _ hD]
  ring

theorem global_loc (c : Corners K) (hc : det c ≠ 0) (x : K × K) : global c (loc c x) = x := by
  rw [loc_eq c hc]
  unfold global
  refine Prod.ext (combine hc ?_) (combine hc ?_) <;> simp only [det] <;> ring

theorem loc_global (c : Corners K) (hc : det c ≠ 0) (x : K × K) : loc c (global c x) = x := by
  rw [loc_eq c hc]
  unfold global
  obtain ⟨⟨a1, a2⟩, ⟨b1, b2⟩, ⟨c1, c2⟩⟩ := c
  obtain ⟨x1, x2⟩ := x
  simp only [det] at hc ⊢
  rw [Prod.mk.injEq]
  constructor <;> rw [div_eq_iff hc] <;> ring

/-- `global` is affine: it maps the point with barycentric coordinates given by a local geometry to that point of the images. -/
theorem global_global (f l : Corners K) (x : K × K) :
    global f (global l x) = global (global f l.1, global f l.2.1, global f l.2.2) x := by
  simp only [global, Prod.mk.injEq]
  constructor <;> ring

/-- **C94** Geometry in the father in 2D: once a father with positive area is bound to an element with a geometry, mapping a point of the
reference triangle by `geometryInFather()` and then by the geometry of the father gives the point the element's geometry gives. -/
theorem C94_geometry (corners : Nat → Corners K) (e : Elem K) (f p : Corners K) (hf : det f ≠ 0) (hp : e.geometry corners = some p) :
    ∃ l, (e.bindFather f).geometryInFather corners = some l ∧ ∀ x, global f (global l x) = global p x := by
  have hp' : (e.bindFather f).geometry corners = some p := hp
  refine ⟨(loc f p.1, loc f p.2.1, loc f p.2.2), ?_, fun x => ?_⟩
  · unfold Elem.geometryInFather
    rw [hp']
    rfl
  · rw [global_global]
    simp only [global_loc f hf]

/-- **C94** The father bound last counts (adaptation binds the old element, then the new one). -/
theorem C94_rebind (corners : Nat → Corners K) (e : Elem K) (f f' : Corners K) :
    ((e.bindFather f).bindFather f').geometryInFather corners = (e.bindFather f').geometryInFather corners := rfl

/-- **C94** The weight used in a restriction: the area of the geometry in the father, relative to the area of the reference triangle, is the
area of the element relative to the area of the father (signed). -/
theorem C94_area (corners : Nat → Corners K) (e : Elem K) (f p : Corners K) (hf : det f ≠ 0) (hp : e.geometry corners = some p) :
    ∃ l, (e.bindFather f).geometryInFather corners = some l ∧ det l * det f = det p := by
  have hp' : (e.bindFather f).geometry corners = some p := hp
  refine ⟨(loc f p.1, loc f p.2.1, loc f p.2.2), ?_, ?_⟩
  · unfold Elem.geometryInFather
    rw [hp']
    rfl
  · obtain ⟨p0, p1, p2⟩ := p
    simp only
    have h0 := global_loc f hf p0
    have h1 := global_loc f hf p1
    have h2 := global_loc f hf p2
    generalize loc f p0 = l0 at *
    generalize loc f p1 = l1 at *
    generalize loc f p2 = l2 at *
    subst h0 h1 h2
    simp only [det, global]
    ring

/-- A point of a triangle: a convex combination of its corners. -/
def InTriangle [LinearOrder K] (c : Corners K) (x : K × K) : Prop :=
  ∃ s t u : K, 0 ≤ s ∧ 0 ≤ t ∧ 0 ≤ u ∧ s + t + u = 1 ∧
    x = (s * c.1.1 + t * c.2.1.1 + u * c.2.2.1, s * c.1.2 + t * c.2.1.2 + u * c.2.2.2)

/-- **C94** If the corners of the element lie in the father, the corners of `geometryInFather()` lie in the reference triangle. -/
theorem C94_inside [LinearOrder K] [IsStrictOrderedRing K] (corners : Nat → Corners K) (e : Elem K) (f p : Corners K) (hf : det f ≠ 0) (hp : e.geometry corners = some p)
    (h0 : InTriangle f p.1) (h1 : InTriangle f p.2.1) (h2 : InTriangle f p.2.2) :
    ∃ l, (e.bindFather f).geometryInFather corners = some l ∧
      ∀ y ∈ [l.1, l.2.1, l.2.2], 0 ≤ y.1 ∧ 0 ≤ y.2 ∧ y.1 + y.2 ≤ 1 := by
  have hp' : (e.bindFather f).geometry corners = some p := hp
  refine ⟨(loc f p.1, loc f p.2.1, loc f p.2.2), ?_, ?_⟩
  · unfold Elem.geometryInFather
    rw [hp']
    rfl
  · have key : ∀ x, InTriangle f x → 0 ≤ (loc f x).1 ∧ 0 ≤ (loc f x).2 ∧ (loc f x).1 + (loc f x).2 ≤ 1 := by
      rintro x ⟨s, t, u, hs, ht, hu, hsum, rfl⟩
      have e : (s * f.1.1 + t * f.2.1.1 + u * f.2.2.1, s * f.1.2 + t * f.2.1.2 + u * f.2.2.2) = global f (t, u) := by
        have : s = 1 - t - u := by linear_combination hsum
        subst this
        simp only [global, Prod.mk.injEq]
        constructor <;> ring
      rw [e, loc_global f hf]
      exact ⟨ht, hu, by linarith⟩
    intro y hy
    simp only [List.mem_cons, List.not_mem_nil, or_false] at hy
    rcases hy with rfl | rfl | rfl
    · exact key _ h0
    · exact key _ h1
    · exact key _ h2

/-- **C144** is false for copies: a copy of an element with a bound father has no father, and reading the indeterminate pointer is undefined.
The same for an element that was never bound. -/
theorem C144_copy_false (corners : Nat → Corners K) (c f : Corners K) :
    (((Elem.middle c).bindFather f).geometryInFather corners).isSome ∧
    (((Elem.middle c).bindFather f).copy none).geometryInFather corners = none ∧ (Elem.middle c).geometryInFather corners = none :=
  ⟨rfl, rfl, rfl⟩

/-- **C144** (part) Geometry in the father on the interface of a 2D grid: right if the end points of the element lie on the line of the father. -/
theorem C144_interface_partial (f p : Ends K) (t0 t1 : K) (h0 : p.1 = segGlobal f t0) (h1 : p.2 = segGlobal f t1)
    (hf : (f.2.1 - f.1.1) * (f.2.1 - f.1.1) + (f.2.2 - f.1.2) * (f.2.2 - f.1.2) ≠ 0) :
    segInFather f p = (t0, t1) ∧ ∀ x, segGlobal f (localGlobal (segInFather f p) x) = segGlobal p x := by
  have key : ∀ t, segLoc f (segGlobal f t) = t := by
    intro t
    unfold segLoc segGlobal
    rw [div_eq_iff hf]
    ring
  have e : segInFather f p = (t0, t1) := by
    unfold segInFather
    rw [h0, h1, key, key]
  refine ⟨e, fun x => ?_⟩
  rw [e]
  obtain ⟨p0, p1⟩ := p
  simp only at h0 h1
  subst h0 h1
  simp only [segGlobal, localGlobal, Prod.mk.injEq]
  constructor <;> ring

end Field

/-- **C144** is false on the interface when the removal of a vertex straightens a bend: the old segments from (0, 0) to (1, 1) and from (1, 1) to
(2, 0) become one from (0, 0) to (2, 0), which is bound as father. The middle of the first old segment, (1/2, 1/2), is mapped to
(1/2, 0). -/
theorem C144_interface_false :
    segGlobal (((0, 0), (2, 0)) : Ends ℚ) (localGlobal (segInFather ((0, 0), (2, 0)) ((0, 0), (1, 1))) (1 / 2)) = (1 / 2, 0) ∧
    segGlobal (((0, 0), (1, 1)) : Ends ℚ) (1 / 2) = (1 / 2, 1 / 2) := by
  constructor <;> decide +kernel

/-- Non-vacuity of the C94 theorems: the lower left quarter of a triangle. -/
example : det (((0, 0), (2, 0), (0, 2)) : Corners ℚ) ≠ 0 ∧
    (((Elem.middle ((0, 0), (1, 0), (0, 1))).bindFather ((0, 0), (2, 0), (0, 2))).geometryInFather (fun _ => ((0, 0), (0, 0), (0, 0)))) =
      some (((0, 0), (1 / 2, 0), (0, 1 / 2)) : Corners ℚ) := by
  constructor <;> decide +kernel

/-! ## C233: old elements and repeated questions -/

/-- **C233** An element stored during an adaptation has for ever the id and the corners that the leaf element had when it was stored, whatever the grid (`T'`,
`corners'`) looks like when it is asked. -/
theorem C233_old {K : Type} (T : Tri d) (corners : Nat → Corners K) (h : Nat) (hex : h < T.cells.length) :
    ∃ (old : Elem K) (i : List Nat), Elem.old T corners h = some old ∧ ((Elem.leaf h : Elem K).getId T).map (·.2) = some i ∧
      ∀ (T' : Tri d) (corners' : Nat → Corners K), (old.getId T').map (·.2) = some i ∧
        old.geometry corners' = (Elem.leaf h : Elem K).geometry corners ∧ old.geometry corners' = some (corners h) := by
  have hc : ∃ i, cellId T h = some i := by
    unfold cellId
    rw [List.getElem?_eq_getElem hex]
    exact ⟨_, rfl⟩
  obtain ⟨i, hi⟩ := hc
  refine ⟨⟨some h, some i, false, some (corners h), none⟩, i, by simp [Elem.old, hi], by simp [Elem.getId, Elem.leaf, hi], fun T' corners' => ⟨rfl, ?_, rfl⟩⟩
  simp [Elem.geometry, Elem.leaf]

/-- **C233** An element object that was asked for its id gives the same answer ever after; the question changes neither the comparison nor the geometry. -/
theorem C233_again {K : Type} (T : Tri d) (e e' : Elem K) (i : List Nat) (h : e.getId T = some (e', i)) :
    (∀ T' : Tri d, e'.getId T' = some (e', i)) ∧ e'.equals e = true ∧ ∀ corners, e'.geometry corners = e.geometry corners := by
  obtain ⟨host, id, leaf, vertex, father⟩ := e
  unfold Elem.getId at h
  cases id with
  | some j =>
    simp only [Option.some.injEq, Prod.mk.injEq] at h
    obtain ⟨rfl, rfl⟩ := h
    exact ⟨fun _ => rfl, by simp [Elem.equals], fun _ => rfl⟩
  | none =>
    cases host with
    | none => simp at h
    | some k =>
      simp only [Option.map_eq_some_iff, Prod.mk.injEq] at h
      obtain ⟨j, -, rfl, rfl⟩ := h
      exact ⟨fun _ => rfl, by simp [Elem.equals], fun _ => rfl⟩

/-- **C233** The same for facets. -/
theorem C233_facet_again (T : Tri d) (o o' : Facet d) (i : List Nat) (h : o.getId T = some (o', i)) :
    (∀ T' : Tri d, o'.getId T' = some (o', i)) ∧ o'.host = o.host := by
  obtain ⟨host, id⟩ := o
  unfold Facet.getId at h
  cases id with
  | some j =>
    simp only [Option.some.injEq, Prod.mk.injEq] at h
    obtain ⟨rfl, rfl⟩ := h
    exact ⟨fun _ => rfl, rfl⟩
  | none =>
    simp only at h
    split at h
    · simp only [Option.some.injEq, Prod.mk.injEq] at h
      obtain ⟨rfl, rfl⟩ := h
      exact ⟨fun _ => rfl, rfl⟩
    · simp at h

/-- Triangle 0 before and after the split of an edge: the stored element keeps `[0, 1, 2]`, a new object has `[0, 1, 4]`. -/
example : cellId exTri 0 = some [0, 1, 2] ∧ cellId splitTri 0 = some [0, 1, 4] := by decide +kernel

end Verif.Entity
