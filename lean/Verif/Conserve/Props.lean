import Verif.Conserve.Remove

/-!
# C195: `adapt(handle)` transfers piecewise constant data correctly

The whole of `adapt(handle)` in 2D: from the requests of the user to the values on the new elements.
-/

namespace Verif.Conserve

open Refine MeasureTheory

/-! ## Specification -/

/-- An execution of `adapt(handle)`: the mesh before, after the insertions and afterwards; the requests; the new vertices, the elements made by each removal; the
marked cells of each request; the elements in the order of iteration and their neighbours; the marks before and after; the component ids of the requests
(insertions, then removals); the components; and the ids of elements. -/
structure Exec where
  before : TMesh
  middle : TMesh
  after : TMesh
  rs : List (Req (ℝ × ℝ))
  vs : List ℕ
  new : List (Option ℕ)
  news : List (List (Fin 3 → ℕ))
  outer : ℕ → Finset ℕ
  zones : List (List ℕ)
  leaf : List ℕ
  nbr : ℕ → List ℕ
  s : Components.State
  s' : Components.State
  ids : List ℕ
  cs : List (ℕ × ConnComp.Comp)
  ident : Finset ℕ → ℕ
  early : Finset ℕ → ℕ

/-- The code does these steps (mmesh.hh:1138-1165, 1179-1371). -/
structure Exec.Runs (x : Exec) : Prop where
  count : x.zones.length = x.rs.length + x.vs.length
  insertZones : ∀ (i : ℕ) r, x.rs[i]? = some r → ∃ z, x.zones[i]? = some z ∧ ZoneOf x.before x.outer r z
  removeZones : ∀ (i : ℕ) v, x.vs[i]? = some v → ∃ z, x.zones[x.rs.length + i]? = some z ∧ ZoneAt x.before v z
  marking : Components.Marking x.zones (Components.start x.s 0) x.s' x.ids
  build : ConnComp.Build (ConnComp.gridOf x.s' x.nbr fun _ => false) [] x.leaf (some x.cs)
  inserts : Inserts x.before x.rs x.new x.middle
  removes : Removes x.middle x.vs x.news x.after

/-- The mesh is a triangulation with counter-clockwise elements, none of them twice. -/
structure Proper (M : TMesh) : Prop where
  conforming : Conforming ℝ M
  ccw : ∀ c ∈ M.cells, 0 < Clip.side (M.pos (c 0)) (M.pos (c 1)) (M.pos (c 2))
  distinct : M.cells.Pairwise fun c c' => Finset.univ.image c ≠ Finset.univ.image c'

/-- The grid and the requests are as they should be. -/
structure Exec.Requests (x : Exec) : Prop where
  /-- The iteration visits the elements; elements with two common vertices are neighbours. -/
  leaf : ∀ k, k ∈ x.leaf ↔ k < x.before.cells.length
  nbrLeaf : ∀ a n, n ∈ x.nbr a → n ∈ x.leaf
  nbrShare : ∀ (k l : ℕ) c c', x.before.cells[k]? = some c → x.before.cells[l]? = some c' → k ≠ l →
    2 ≤ (Finset.univ.image c ∩ Finset.univ.image c').card → l ∈ x.nbr k
  /-- The elements at a vertex that is removed are connected by facets. -/
  stars : ∀ v ∈ x.vs, ConnComp.ZoneConnected x.nbr (x.leaf.filter fun k => decide (∃ c ∈ x.before.cells[k]?, v ∈ Finset.univ.image c))
  /-- No marks from before. -/
  clean : ConnComp.Clean x.leaf x.zones x.s
  /-- Requests for edges are made for edges of the mesh with `0 < where < 1`; other points are inside an element when their turn comes. -/
  edges : ∀ r ∈ x.rs, ∀ e, r.edge = some e → OnEdge ℝ x.before r
  inside : ∀ pre r post new M1, x.rs = pre ++ r :: post → Inserts x.before pre new M1 → r.edge = none → InElement ℝ M1 r.point
  /-- The vertices to be removed are vertices of the mesh, and not on the boundary when their turn comes. -/
  removed : ∀ v ∈ x.vs, v ∈ vertices x.before
  inner : ∀ pre v post news M1, x.vs = pre ++ v :: post → Removes x.middle pre news M1 → Inner M1 v
  /-- Different elements have different ids. -/
  ident : Function.Injective x.ident
  /-- The id of an element made by a removal, computed right then, is its id unless it has a new vertex; and if it has, it is no id of another element. -/
  early : ∀ S : Finset ℕ, (∀ m ∈ S, some m ∉ x.new) → x.early S = x.ident S
  earlyNew : ∀ N ∈ x.news, ∀ n ∈ N, ∀ c ∈ x.after.cells, x.early (Finset.univ.image n) = x.ident (Finset.univ.image c) →
    Finset.univ.image n = Finset.univ.image c

/-- Everything is as it should be. -/
structure Exec.Sound (x : Exec) : Prop extends Exec.Requests x, Proper x.before

/-- The id of an element. -/
def Exec.id (x : Exec) (c : Fin 3 → ℕ) : ℕ := x.ident (Finset.univ.image c)

/-- `createdEntityConnectedComponentMap_` after `adapt_`. -/
def Exec.created (x : Exec) : List (ℕ × ℕ) := Conserve.created x.after x.ident x.early x.new x.news x.ids

/-- The values after `adapt(handle)`, given the values before. -/
noncomputable def Exec.transfer (x : Exec) (val : Transfer.P0 ℝ) : ℕ → ℝ :=
  (Transfer.adaptTransfer 0 0 Transfer.p0 (leaves x.before x.after x.ident x.new x.news x.created x.cs) val).val

/-- Area of an element of a mesh, and of the common part of elements of two meshes. -/
noncomputable def area (M : TMesh) (c : Fin 3 → ℕ) : ℝ := (volume (convexHull ℝ (Set.range fun i => M.pos (c i)))).toReal

noncomputable def shared (M : TMesh) (o : Fin 3 → ℕ) (M' : TMesh) (c : Fin 3 → ℕ) : ℝ :=
  (volume (convexHull ℝ (Set.range fun i => M.pos (o i)) ∩ convexHull ℝ (Set.range fun i => M'.pos (c i)))).toReal

/-! ## Proofs -/

theorem find_insertAll (es : List (ℕ × ℕ)) : ∀ (m : List (ℕ × ℕ)) (k : ℕ),
    (∀ v, Map.find (insertAll m es) k = some v → Map.find m k = some v ∨ (k, v) ∈ es) ∧
    ((∃ v, Map.find m k = some v) ∨ k ∈ es.map Prod.fst → ∃ v, Map.find (insertAll m es) k = some v) := by
  induction es with
  | nil => intro m k; exact ⟨fun v h => Or.inl h, fun h => by simpa [insertAll] using h⟩
  | cons e es ih =>
    intro m k
    obtain ⟨i1, i2⟩ := ih (Map.insert m e.1 e.2) k
    have hfind : ∀ v, Map.find (Map.insert m e.1 e.2) k = some v → Map.find m k = some v ∨ (k, v) = e := by
      intro v hv
      by_cases hk : k = e.1
      · subst hk
        cases hf : Map.find m e.1 with
        | none =>
          rw [Map.find_insert_new hf, if_pos rfl] at hv
          cases hv
          exact Or.inr rfl
        | some y =>
          rw [Map.insert_old hf, hf] at hv
          exact Or.inl hv
      · rw [Map.find_insert_ne hk] at hv
        exact Or.inl hv
    constructor
    · intro v hv
      rcases i1 v hv with h | h
      · rcases hfind v h with h | h
        · exact Or.inl h
        · exact Or.inr (by simp [h])
      · exact Or.inr (by simp [h])
    · intro h
      refine i2 ?_
      by_cases hk : k ∈ es.map Prod.fst
      · exact Or.inr hk
      · left
        rw [Map.find_isSome_iff, Map.mem_keys_insert, ← Map.find_isSome_iff]
        rcases h with h | h
        · tauto
        · simp only [List.map_cons, List.mem_cons] at h
          tauto

section
variable {x : Exec} (hr : x.Runs) (hs : x.Sound)
include hr hs

theorem zones_ok : ConnComp.Zones x.leaf x.nbr x.zones := by
  have hsplit : ∀ z ∈ x.zones, (∃ r ∈ x.rs, ZoneOf x.before x.outer r z) ∨ ∃ v ∈ x.vs, ZoneAt x.before v z := by
    intro z hz
    obtain ⟨i, hi⟩ := List.mem_iff_getElem?.1 hz
    obtain ⟨hl, -⟩ := List.getElem?_eq_some_iff.1 hi
    by_cases h : i < x.rs.length
    · obtain ⟨z', h1, h2⟩ := hr.insertZones i x.rs[i] (List.getElem?_eq_getElem h)
      rw [hi] at h1
      cases h1
      exact Or.inl ⟨_, List.getElem_mem h, h2⟩
    · have hlt : i - x.rs.length < x.vs.length := by
        have := hr.count
        omega
      obtain ⟨z', h1, h2⟩ := hr.removeZones (i - x.rs.length) x.vs[i - x.rs.length] (List.getElem?_eq_getElem hlt)
      rw [show x.rs.length + (i - x.rs.length) = i by omega, hi] at h1
      cases h1
      exact Or.inr ⟨_, List.getElem_mem hlt, h2⟩
  have hcell : ∀ k, k ∈ x.leaf → ∃ c, x.before.cells[k]? = some c := fun k hk =>
    ⟨_, List.getElem?_eq_getElem ((hs.leaf k).1 hk)⟩
  have hleaf : ∀ (k : ℕ) c, x.before.cells[k]? = some c → k ∈ x.leaf := fun k c hk =>
    (hs.leaf k).2 (List.getElem?_eq_some_iff.1 hk).1
  have hmeets : ∀ z ∈ x.zones, ∃ c ∈ z, c ∈ x.leaf := by
    intro z hz
    rcases hsplit z hz with ⟨r, hrm, hzo⟩ | ⟨v, hv, hza, -⟩
    · cases he : r.edge with
      | none =>
        simp only [ZoneOf, he] at hzo
        obtain ⟨k, c, rfl, hk, -⟩ := hzo
        exact ⟨k, by simp, hleaf k c hk⟩
      | some e =>
        obtain ⟨c, hc, i, j, -, t, -, -, hrt⟩ := hs.edges r hrm e he
        obtain ⟨k, hk⟩ := List.mem_iff_getElem?.1 hc
        obtain ⟨a, b⟩ := e
        simp only [ZoneOf, he] at hzo
        rw [hrt] at he
        simp only [refineEdge, Option.some.injEq, Prod.mk.injEq] at he
        exact ⟨k, (hzo.1 k c hk).2 ⟨⟨i, he.1⟩, ⟨j, he.2⟩⟩, hleaf k c hk⟩
    · obtain ⟨c, hc, hi⟩ := hs.removed v hv
      obtain ⟨k, hk⟩ := List.mem_iff_getElem?.1 hc
      exact ⟨k, (hza k c hk).2 hi, hleaf k c hk⟩
  refine ⟨hmeets, ?_, ?_⟩
  · intro z hz z' hz' k hk hk'
    by_cases hkl : k ∈ x.leaf
    · exact ⟨k, hkl, hk, hk'⟩
    · -- an infinite cell: both zones are zones of the same edge
      have hkn : x.before.cells.length ≤ k := by
        by_contra h
        exact hkl ((hs.leaf k).2 (by omega))
      have hedge : ∀ z ∈ x.zones, k ∈ z → ∃ a b, (∀ (k : ℕ) c, x.before.cells[k]? = some c → (k ∈ z ↔ (∃ i, c i = a) ∧ ∃ i, c i = b)) ∧ x.outer k = {a, b} := by
        intro z hz hk
        rcases hsplit z hz with ⟨r, hrm, hzo⟩ | ⟨v, hv, -, hzf⟩
        · cases he : r.edge with
          | none =>
            simp only [ZoneOf, he] at hzo
            obtain ⟨k', c, rfl, hk', -⟩ := hzo
            rw [List.mem_singleton] at hk
            subst hk
            exact absurd (hleaf k c hk') hkl
          | some e =>
            obtain ⟨a, b⟩ := e
            simp only [ZoneOf, he] at hzo
            exact ⟨a, b, hzo.1, hzo.2 k hk hkn⟩
        · exact absurd (hzf k hk) (by omega)
      obtain ⟨a, b, h1, h2⟩ := hedge z hz hk
      obtain ⟨a', b', h1', h2'⟩ := hedge z' hz' hk'
      obtain ⟨k1, hk1, hl1⟩ := hmeets z hz
      obtain ⟨c, hc⟩ := hcell k1 hl1
      refine ⟨k1, hl1, hk1, (h1' k1 c hc).2 ?_⟩
      have hab := (h1 k1 c hc).1 hk1
      have hsub : ∀ u ∈ ({a', b'} : Finset ℕ), ∃ i, c i = u := by
        intro u hu
        rw [← h2', h2, Finset.mem_insert, Finset.mem_singleton] at hu
        rcases hu with rfl | rfl
        · exact hab.1
        · exact hab.2
      exact ⟨hsub a' (by simp), hsub b' (by simp)⟩
  · intro z hz
    rcases hsplit z hz with ⟨r, hrm, hzo⟩ | ⟨v, hv, hza, hzf⟩
    · cases he : r.edge with
      | none =>
        simp only [ZoneOf, he] at hzo
        obtain ⟨k, c, rfl, hk, -⟩ := hzo
        intro a ha b hb
        simp only [List.mem_filter, List.mem_singleton] at ha hb
        rw [ha.1, hb.1]
      | some e =>
        obtain ⟨a, b⟩ := e
        have hab : a ≠ b := by
          obtain ⟨c, hc, i, j, hij, t, -, -, hrt⟩ := hs.edges r hrm _ he
          rw [hrt] at he
          simp only [refineEdge, Option.some.injEq, Prod.mk.injEq] at he
          rw [← he.1, ← he.2]
          exact fun h => hij (hs.conforming.inj c hc h)
        simp only [ZoneOf, he] at hzo
        intro p hp q hq
        by_cases hpq : p = q
        · rw [hpq]
        · refine .single ⟨?_, hq⟩
          simp only [List.mem_filter, decide_eq_true_eq] at hp hq
          obtain ⟨c, hc⟩ := hcell p hp.2
          obtain ⟨c', hc'⟩ := hcell q hq.2
          refine hs.nbrShare p q c c' hc hc' hpq ?_
          refine (Finset.card_pair hab).symm.le.trans (Finset.card_le_card ?_)
          obtain ⟨h1, h2⟩ := (hzo.1 p c hc).1 hp.1
          obtain ⟨h1', h2'⟩ := (hzo.1 q c' hc').1 hq.1
          intro u hu
          rw [Finset.mem_insert, Finset.mem_singleton] at hu
          rcases hu with rfl | rfl
          · exact Finset.mem_inter.2 ⟨mem_verts.2 h1, mem_verts.2 h1'⟩
          · exact Finset.mem_inter.2 ⟨mem_verts.2 h2, mem_verts.2 h2'⟩
    · have hstar := hs.stars v hv
      have hiff : ∀ k, k ∈ z.filter (fun c => c ∈ x.leaf) ↔ k ∈ x.leaf.filter fun k => decide (∃ c ∈ x.before.cells[k]?, v ∈ Finset.univ.image c) := by
        intro k
        simp only [List.mem_filter, decide_eq_true_eq]
        constructor
        · rintro ⟨h1, h2⟩
          obtain ⟨c, hc⟩ := hcell k h2
          exact ⟨h2, c, hc, mem_verts.2 ((hza k c hc).1 h1)⟩
        · rintro ⟨h1, c, hc, h2⟩
          exact ⟨(hza k c hc).2 (mem_verts.1 h2), h1⟩
      intro a ha b hb
      refine Relation.ReflTransGen.mono ?_ _ _ (hstar a ((hiff a).1 ha) b ((hiff b).1 hb))
      rintro p q ⟨h1, h2⟩
      exact ⟨h1, (hiff q).2 h2⟩

theorem ids_length : x.ids.length = x.zones.length := by
  obtain ⟨s'', ids', hm', hlen, -, -⟩ := Components.C24_linked x.zones x.s 0 (zones_ok hr hs).ne hs.clean.zone
  obtain ⟨rfl, rfl⟩ := Components.marking_unique hr.marking hm'
  exact hlen

/-- The state of the mesh after the loops. -/
theorem invariant : InvR x.before x.zones x.new x.vs x.news x.after ∧ x.new.length = x.rs.length ∧ x.news.length = x.vs.length := by
  obtain ⟨h1, h2⟩ := inserts_inv (zones := x.zones) (outer := x.outer) hs.conforming hs.ccw hs.distinct hr.inserts []
    (InvI.start x.zones hs.conforming hs.ccw hs.distinct) (by simpa using hr.insertZones) hs.edges hs.inside
  rw [List.nil_append] at h1
  have hz : RemoveZones x.before x.vs x.new.length x.zones := by
    rw [h2]
    exact hr.removeZones
  obtain ⟨h3, h4, -⟩ := removes_inv hs.conforming hs.ccw hs.distinct hz hs.removed hr.removes []
    (h1.toR hs.conforming hs.ccw hs.distinct hz hs.removed) (by simp) hs.inner
  exact ⟨by simpa using h3, h2, h4⟩

omit hr hs in
theorem isNew_iff (new : List (Option ℕ)) (news : List (List (Fin 3 → ℕ))) (c : Fin 3 → ℕ) :
    isNew new news c = true ↔ (∃ N ∈ news, c ∈ N) ∨ ∃ m, some m ∈ new ∧ m ∈ verts c := by
  unfold isNew
  rw [decide_eq_true_eq]
  refine or_congr_right ⟨?_, ?_⟩
  · rintro ⟨o, ho, m, hm, hc⟩
    cases hm
    exact ⟨m, ho, hc⟩
  · rintro ⟨m, hm, hc⟩
    exact ⟨some m, hm, m, rfl, hc⟩

/-- Every new element is found in the map of created elements, with the component id of a request that accounts for it. -/
theorem found {c : Fin 3 → ℕ} (hc : c ∈ x.after.cells) (hn : isNew x.new x.news c = true) :
    ∃ κ k, Map.find x.created (x.id c) = some k ∧ x.ids[κ]? = some k ∧ Good x.before x.after.pos x.zones x.new x.vs c κ := by
  obtain ⟨hI, hl1, hl2⟩ := invariant hr hs
  have hlen : x.ids.length = x.new.length + x.news.length := by rw [ids_length hr hs, hr.count, hl1, hl2]
  -- entries of the two parts
  have e1 : ∀ k v, (k, v) ∈ ((x.news.zip (x.ids.drop x.new.length)).flatMap fun p => p.1.map fun n => (x.early (Finset.univ.image n), p.2)) →
      ∃ (i : ℕ) (N : List (Fin 3 → ℕ)) (n : Fin 3 → ℕ), x.news[i]? = some N ∧ n ∈ N ∧ k = x.early (verts n) ∧ x.ids[x.new.length + i]? = some v := by
    intro k v h
    simp only [List.mem_flatMap, List.mem_map] at h
    obtain ⟨⟨N, v'⟩, hp, n, hn, he⟩ := h
    simp only [Prod.mk.injEq] at he
    obtain ⟨rfl, rfl⟩ := he
    obtain ⟨i, hi⟩ := List.mem_iff_getElem?.1 hp
    rw [List.getElem?_zip_eq_some] at hi
    exact ⟨i, N, n, hi.1, hn, rfl, by rw [← List.getElem?_drop]; exact hi.2⟩
  have e2 : ∀ k v, (k, v) ∈ ((Adapt.assignments x.new x.ids).flatMap fun p =>
      (x.after.cells.filter fun c => p.1 ∈ Finset.univ.image c).map fun c => (x.ident (Finset.univ.image c), p.2)) →
      ∃ (i : ℕ) (m : ℕ) (c' : Fin 3 → ℕ), x.new[i]? = some (some m) ∧ c' ∈ x.after.cells ∧ m ∈ verts c' ∧ k = x.id c' ∧ x.ids[i]? = some v := by
    intro k v h
    simp only [List.mem_flatMap, List.mem_map, List.mem_filter, decide_eq_true_eq] at h
    obtain ⟨⟨m, v'⟩, hp, c', ⟨hc', hm⟩, he⟩ := h
    simp only [Prod.mk.injEq] at he
    obtain ⟨rfl, rfl⟩ := he
    simp only [Adapt.assignments, List.mem_filterMap, Option.map_eq_some_iff, Prod.mk.injEq] at hp
    obtain ⟨⟨o, v''⟩, hp, m', ho, rfl, rfl⟩ := hp
    simp only at ho
    subst ho
    obtain ⟨i, hi⟩ := List.mem_iff_getElem?.1 hp
    rw [List.getElem?_zip_eq_some] at hi
    exact ⟨i, m', c', hi.1, hc', hm, rfl, hi.2⟩
  -- the element is found
  have hex : ∃ k, Map.find x.created (x.id c) = some k := by
    by_cases hnew : ∃ m, some m ∈ x.new ∧ m ∈ verts c
    · obtain ⟨m, hm, hmc⟩ := hnew
      obtain ⟨i, hi⟩ := List.mem_iff_getElem?.1 hm
      have hi' : i < x.ids.length := by
        have := (List.getElem?_eq_some_iff.1 hi).1
        omega
      refine (find_insertAll _ _ _).2 (Or.inr ?_)
      simp only [List.mem_map, List.mem_flatMap, List.mem_filter, decide_eq_true_eq]
      refine ⟨(x.id c, x.ids[i]), ⟨(m, x.ids[i]), ?_, c, ⟨hc, hmc⟩, rfl⟩, rfl⟩
      simp only [Adapt.assignments, List.mem_filterMap, Option.map_eq_some_iff, Prod.mk.injEq]
      refine ⟨(some m, x.ids[i]), List.mem_iff_getElem?.2 ⟨i, ?_⟩, m, rfl, rfl, rfl⟩
      rw [List.getElem?_zip_eq_some]
      exact ⟨hi, List.getElem?_eq_getElem hi'⟩
    · obtain ⟨N, hN, hcN⟩ := ((isNew_iff _ _ _).1 hn).resolve_right hnew
      obtain ⟨i, hi⟩ := List.mem_iff_getElem?.1 hN
      have hi' : x.new.length + i < x.ids.length := by
        have := (List.getElem?_eq_some_iff.1 hi).1
        omega
      push Not at hnew
      have hearly : x.early (Finset.univ.image c) = x.id c := hs.early _ fun m hm hm' => hnew m hm' hm
      refine (find_insertAll _ _ _).2 (Or.inl ((find_insertAll _ _ _).2 (Or.inr ?_)))
      simp only [List.mem_map, List.mem_flatMap]
      refine ⟨(x.early (Finset.univ.image c), x.ids[x.new.length + i]), ⟨(N, x.ids[x.new.length + i]), List.mem_iff_getElem?.2 ⟨i, ?_⟩, c, hcN, rfl⟩, hearly⟩
      rw [List.getElem?_zip_eq_some, List.getElem?_drop]
      exact ⟨hi, List.getElem?_eq_getElem hi'⟩
  obtain ⟨k, hk⟩ := hex
  rcases (find_insertAll _ _ _).1 k hk with h | h
  · rcases (find_insertAll _ _ _).1 k h with h | h
    · simp at h
    · obtain ⟨i, N, n, h1, h2, h3, h4⟩ := e1 _ _ h
      have heq := hs.earlyNew N (List.mem_of_getElem? h1) n h2 c hc h3.symm
      exact ⟨_, k, hk, h4, (hI.made i N h1 n h2).1.congr heq.symm⟩
  · obtain ⟨i, m, c', h1, h2, h3, h4, h5⟩ := e2 _ _ h
    have heq : verts c = verts c' := hs.ident h4
    rw [← heq] at h3
    refine ⟨i, k, hk, h5, ?_⟩
    rcases hI.good c hc with hold | ⟨κ, hg⟩
    · obtain ⟨j, hj⟩ := mem_verts.1 h3
      exact absurd ⟨c, hold, j, hj⟩ (hI.newMem m (List.mem_of_getElem? h1)).2
    · exact hg.linked (Linked.symm (hg.ins i m h1 h3))

end

/-! ## C195 -/

/-- **C195** Every new element has a connected component, without repetitions, which contains every old element that overlaps with it. -/
theorem C195_component {x : Exec} (hr : x.Runs) (hs : x.Sound) {c : Fin 3 → ℕ} (hc : c ∈ x.after.cells) (hn : isNew x.new x.news c = true) :
    ∃ comp, ConnComp.getComponent false x.created x.cs (x.id c) = .ok comp ∧ comp.entities.Nodup ∧ (∀ k ∈ comp.entities, k < x.before.cells.length) ∧
      ∀ (k : ℕ) o, x.before.cells[k]? = some o → shared x.before o x.after c ≠ 0 → k ∈ comp.entities := by
  obtain ⟨κ, k, h1, h2, h3⟩ := found hr hs hc hn
  obtain ⟨comp, g1, g2, g3⟩ := ConnComp.C57_query x.leaf x.nbr (fun _ => false) x.zones x.s x.s' x.ids (zones_ok hr hs) hs.clean hs.nbrLeaf (fun _ _ => rfl)
    hr.marking x.cs hr.build x.created (x.id c) κ k h2 h1
  refine ⟨comp, g1, g2, fun k hk => (hs.leaf k).1 ((g3 k).1 hk).1, fun k o hk ho => (g3 k).2 ⟨?_, ?_⟩⟩
  · exact (hs.leaf k).2 (List.getElem?_eq_some_iff.1 hk).1
  · obtain ⟨j, z, hj⟩ := h3.overlap k o hk fun h => ho (by
      unfold shared
      exact (congrArg ENNReal.toReal h).trans (by simp))
    exact ⟨j, z, hj⟩

/-! ## Sums -/

theorem sum_range (l : List (Fin 3 → ℕ)) (g : (Fin 3 → ℕ) → ℝ) : (l.map g).sum = ∑ k ∈ Finset.range l.length, (l[k]?).elim 0 g := by
  induction l with
  | nil => simp
  | cons a l ih =>
    rw [List.map_cons, List.sum_cons, ih, List.length_cons, Finset.sum_range_succ', add_comm]
    simp

theorem sum_filterMap (h : ℕ → Option (Transfer.Element ℝ)) (f : Transfer.Element ℝ → ℝ) (ks : List ℕ) :
    ((ks.filterMap h).map f).sum = (ks.map fun k => (h k).elim 0 f).sum := by
  induction ks with
  | nil => rfl
  | cons k ks ih =>
    rw [List.filterMap_cons, List.map_cons, List.sum_cons, ← ih]
    cases h k <;> simp

theorem corners_volume (M : TMesh) (c : Fin 3 → ℕ) : Clip.volume (corners M c) = area M c := by
  rw [Clip.volume_measure, region_corners]
  rfl

theorem shared_eq (M : TMesh) (o : Fin 3 → ℕ) (M' : TMesh) (c : Fin 3 → ℕ) :
    shared M o M' c = (volume (Clip.region (corners M o) ∩ Clip.region (corners M' c))).toReal := by
  rw [region_corners, region_corners]
  rfl

theorem area_eq (M : TMesh) (c : Fin 3 → ℕ) : area M c = (volume (Clip.region (corners M c))).toReal := by
  rw [region_corners]
  rfl

theorem shared_comm (M : TMesh) (o : Fin 3 → ℕ) (M' : TMesh) (c : Fin 3 → ℕ) : shared M o M' c = shared M' c M o := by
  unfold shared
  rw [Set.inter_comm]

theorem area_pos {M : TMesh} {c : Fin 3 → ℕ} (h : 0 < Clip.side (M.pos (c 0)) (M.pos (c 1)) (M.pos (c 2))) : 0 < area M c := by
  rw [← corners_volume]
  exact div_pos (abs_pos.2 h.ne') (by norm_num)

/-- An element is the union of its common parts with the elements of a mesh of the same domain. -/
theorem sum_shared {M M' : TMesh} (hM : Conforming ℝ M) (hccw : Ccw M) (hd : Distinct M.cells) {c : Fin 3 → ℕ} (hc : Refine.hull ℝ M' c ⊆ domain ℝ M) :
    (M.cells.map fun o => shared M o M' c).sum = area M' c := by
  have hp : (M.cells.map (corners M)).Pairwise fun s t => volume (Clip.region s ∩ Clip.region t) = 0 := by
    rw [List.pairwise_map]
    refine List.Pairwise.imp_of_mem ?_ hd
    intro a b ha hb hab
    rw [region_corners, region_corners]
    exact null_inter hM hccw ha hb hab
  have hs := Clip.sum_parts hp (Clip.measurable_region (corners M' c)) (Clip.region_ne_top _) (by
    rw [Set.sdiff_eq_empty.2, measure_empty]
    rw [region_corners]
    intro y hy
    obtain ⟨o, ho, hyo⟩ := hc hy
    simp only [Set.mem_iUnion]
    refine ⟨corners M o, List.mem_map.2 ⟨o, ho, rfl⟩, ?_⟩
    rw [region_corners]
    exact hyo)
  rw [List.map_map] at hs
  rw [area_eq, ← hs]
  congr 1
  refine List.map_congr_left fun o _ => ?_
  rw [shared_comm, shared_eq]
  rfl

section
variable {x : Exec} (hr : x.Runs) (hs : x.Sound)
include hr hs

theorem hull_sub {c : Fin 3 → ℕ} (hc : c ∈ x.after.cells) : Refine.hull ℝ x.after c ⊆ domain ℝ x.before := by
  rw [← (invariant hr hs).1.dom]
  exact fun y hy => ⟨c, hc, hy⟩

theorem hull_sub' {o : Fin 3 → ℕ} (ho : o ∈ x.before.cells) : Refine.hull ℝ x.before o ⊆ domain ℝ x.after := by
  rw [(invariant hr hs).1.dom]
  exact fun y hy => ⟨o, ho, hy⟩

/-- A new element is no old element. -/
theorem new_ne_old {c o : Fin 3 → ℕ} (hn : isNew x.new x.news c = true) (ho : o ∈ x.before.cells) : verts c ≠ verts o := by
  obtain ⟨hI, -⟩ := invariant hr hs
  rcases (isNew_iff _ _ _).1 hn with ⟨N, hN, hc⟩ | ⟨m, hm, hmc⟩
  · obtain ⟨i, hi⟩ := List.mem_iff_getElem?.1 hN
    exact (hI.made i N hi c hc).2 o ho
  · intro h
    rw [h] at hmc
    obtain ⟨j, hj⟩ := mem_verts.1 hmc
    exact (hI.newMem m hm).2 ⟨o, ho, j, hj⟩

theorem cell_unique {c c' : Fin 3 → ℕ} (hc : c ∈ x.after.cells) (hc' : c' ∈ x.after.cells) (h : verts c = verts c') : c = c' := by
  obtain ⟨k, hk⟩ := List.mem_iff_getElem?.1 hc
  obtain ⟨k', hk'⟩ := List.mem_iff_getElem?.1 hc'
  have := index_unique (invariant hr hs).1.distinct hk hk' h
  subst this
  rw [hk] at hk'
  exact Option.some.inj hk'

theorem mem_leaves {l : Transfer.Leaf ℝ} (hl : l ∈ leaves x.before x.after x.ident x.new x.news x.created x.cs) :
    ∃ c ∈ x.after.cells, l = ⟨⟨x.id c, corners x.after c⟩, isNew x.new x.news c, children x.before x.ident x.created x.cs (x.id c)⟩ := by
  obtain ⟨c, hc, rfl⟩ := List.mem_map.1 hl
  exact ⟨c, hc, rfl⟩

theorem mem_children {e : ℕ} {o : Transfer.Element ℝ} (ho : o ∈ children x.before x.ident x.created x.cs e) : ∃ c ∈ x.before.cells, o.id = x.id c := by
  unfold children at ho
  split at ho
  · obtain ⟨k, -, hk⟩ := List.mem_filterMap.1 ho
    unfold old at hk
    obtain ⟨c, hc, rfl⟩ := Option.map_eq_some_iff.1 hk
    exact ⟨c, List.mem_of_getElem? hc, rfl⟩
  · simp at ho

theorem ids_ok : Transfer.IdsOk (leaves x.before x.after x.ident x.new x.news x.created x.cs) := by
  constructor
  · have hd : (x.after.cells.map fun c => x.id c).Nodup := by
      have := (invariant hr hs).1.distinct
      rw [List.Nodup, List.pairwise_map]
      exact this.imp fun h1 h2 => h1 (hs.ident h2)
    refine List.Nodup.sublist ?_ hd
    have : (x.after.cells.map fun c => x.id c) = (leaves x.before x.after x.ident x.new x.news x.created x.cs).map fun l => l.id := by
      unfold leaves
      rw [List.map_map]
      rfl
    rw [this]
    exact List.filter_sublist.map _
  · intro l hl hn o ho l' hl' hn' heq
    obtain ⟨c, hc, rfl⟩ := mem_leaves hr hs hl
    obtain ⟨c', hc', rfl⟩ := mem_leaves hr hs hl'
    obtain ⟨d, hd, he⟩ := mem_children hr hs ho
    rw [he] at heq
    exact new_ne_old hr hs hn' hd (hs.ident heq).symm

theorem sum_children {c : Fin 3 → ℕ} (hc : c ∈ x.after.cells) (hn : isNew x.new x.news c = true) (f : Transfer.Element ℝ → ℝ)
    (hf : ∀ o ∈ x.before.cells, shared x.before o x.after c = 0 → f ⟨x.id o, corners x.before o⟩ = 0) :
    ((children x.before x.ident x.created x.cs (x.id c)).map f).sum = (x.before.cells.map fun o => f ⟨x.id o, corners x.before o⟩).sum := by
  obtain ⟨comp, h1, h2, h3, h4⟩ := C195_component hr hs hc hn
  unfold children
  rw [h1]
  simp only
  rw [sum_filterMap, sum_range, ← List.sum_toFinset _ h2]
  refine (Finset.sum_congr rfl ?_).trans (Finset.sum_subset (fun k hk => ?_) fun k hk hnk => ?_)
  · intro k _
    unfold old
    cases x.before.cells[k]? <;> rfl
  · exact Finset.mem_range.2 (h3 k (List.mem_toFinset.1 hk))
  · have hk' := Finset.mem_range.1 hk
    rw [List.getElem?_eq_getElem hk']
    refine hf _ (List.getElem_mem hk') ?_
    by_contra h
    exact hnk (List.mem_toFinset.2 (h4 k _ (List.getElem?_eq_getElem hk') h))

end

/-! ## C195: the values -/

/-- **C195** The value of every element afterwards is the average over the element of the piecewise constant function before. -/
theorem C195_average {x : Exec} (hr : x.Runs) (hs : x.Sound) (val : Transfer.P0 ℝ) {c : Fin 3 → ℕ} (hc : c ∈ x.after.cells) :
    x.transfer val (x.id c) = (x.before.cells.map fun o => shared x.before o x.after c / area x.after c * val.val (x.id o)).sum := by
  obtain ⟨hI, -⟩ := invariant hr hs
  have hccw := hI.ccw c hc
  have hpos := area_pos hccw
  by_cases hn : isNew x.new x.news c = true
  · set l : Transfer.Leaf ℝ := ⟨⟨x.id c, corners x.after c⟩, isNew x.new x.news c, children x.before x.ident x.created x.cs (x.id c)⟩ with hl
    have hlm : l ∈ leaves x.before x.after x.ident x.new x.news x.created x.cs := List.mem_map.2 ⟨c, hc, rfl⟩
    have hv := Transfer.C82_value (Clip.cutSet 0 0) _ (ids_ok hr hs) val l hlm hn
    have hcut : ∀ o : Transfer.Element ℝ, ((Clip.cutSet 0 0 o.corners l.corners).map Clip.volume).sum =
        (volume (Clip.region o.corners ∩ Clip.region l.corners)).toReal := fun o => Clip.C41_cutset_measure o.corners l.corners hccw
    have hne : Transfer.parts (Clip.cutSet 0 0) l ≠ [] := by
      intro e
      have h0 : ∀ o ∈ l.children, (volume (Clip.region o.corners ∩ Clip.region l.corners)).toReal = 0 := by
        intro o ho
        rw [← hcut o]
        have : Clip.cutSet 0 0 o.corners l.corners = [] := by
          unfold Transfer.parts at e
          rw [List.flatMap_eq_nil_iff] at e
          simpa using e o ho
        rw [this]
        rfl
      have h1 := sum_shared hs.conforming hs.ccw hs.distinct (hull_sub hr hs hc)
      have h2 := sum_children hr hs hc hn (fun o => (volume (Clip.region o.corners ∩ Clip.region l.corners)).toReal)
        fun o _ h => by rw [← h, shared_eq]
      have h3 : (l.children.map fun o => (volume (Clip.region o.corners ∩ Clip.region l.corners)).toReal).sum = 0 := by
        refine List.sum_eq_zero fun y hy => ?_
        obtain ⟨o, ho, rfl⟩ := List.mem_map.1 hy
        exact h0 o ho
      have h4 : (x.before.cells.map fun o => (volume (Clip.region (corners x.before o) ∩ Clip.region l.corners)).toReal) =
          x.before.cells.map fun o => shared x.before o x.after c := List.map_congr_left fun o _ => (shared_eq _ _ _ _).symm
      rw [h3, h4, h1] at h2
      exact hpos.ne h2
    refine (hv.1 hne).trans ?_
    simp only [hcut]
    rw [sum_children hr hs hc hn (fun o => (volume (Clip.region o.corners ∩ Clip.region l.corners)).toReal / Clip.volume l.corners * val.val o.id) (by
      intro o _ h
      simp only [hl]
      rw [← shared_eq, h]
      simp)]
    congr 1
    refine List.map_congr_left fun o _ => ?_
    simp only [hl]
    rw [← shared_eq, corners_volume]
  · have hold : c ∈ x.before.cells := by
      rcases hI.flags c hc with h | h
      · exact h
      · exact absurd ((isNew_iff _ _ _).2 h) hn
    have hv : x.transfer val (x.id c) = val.val (x.id c) := by
      refine Transfer.C82_unchanged (Clip.cutSet 0 0) _ (ids_ok hr hs) val (x.id c) fun l hl hln heq => ?_
      obtain ⟨c', hc', rfl⟩ := mem_leaves hr hs hl
      have := cell_unique hr hs hc' hc (hs.ident heq)
      subst this
      exact hn hln
    rw [hv]
    have hterm : ∀ o ∈ x.before.cells, shared x.before o x.after c / area x.after c * val.val (x.id o) = shared x.before o x.after c * ((area x.after c)⁻¹ * val.val (x.id c)) := by
      intro o ho
      by_cases h0 : shared x.before o x.after c = 0
      · rw [h0]; simp
      · have : verts o = verts c := by
          refine overlap_eq hs.conforming hs.ccw ho hold (A := Refine.hull ℝ x.after c) (hull_old hI.pos hold).le ?_
          intro h
          exact h0 ((congrArg ENNReal.toReal h).trans (by simp))
        rw [show x.id o = x.id c from congrArg x.ident this]
        ring
    rw [List.map_congr_left hterm, List.sum_map_mul_right, sum_shared hs.conforming hs.ccw hs.distinct (hull_sub hr hs hc), mul_inv_cancel_left₀ hpos.ne']

/-- **C195** The integral of the piecewise constant function is the same before and afterwards. -/
theorem C195_conservation {x : Exec} (hr : x.Runs) (hs : x.Sound) (val : Transfer.P0 ℝ) :
    (x.after.cells.map fun c => area x.after c * x.transfer val (x.id c)).sum = (x.before.cells.map fun o => area x.before o * val.val (x.id o)).sum := by
  obtain ⟨hI, -⟩ := invariant hr hs
  have e1 : (x.after.cells.map fun c => area x.after c * x.transfer val (x.id c)) =
      x.after.cells.map fun c => (x.before.cells.map fun o => shared x.before o x.after c * val.val (x.id o)).sum := by
    refine List.map_congr_left fun c hc => ?_
    have hpos := area_pos (hI.ccw c hc)
    rw [C195_average hr hs val hc, ← List.sum_map_mul_left]
    congr 1
    refine List.map_congr_left fun o _ => ?_
    field_simp
  have swap : ∀ (ls os : List (Fin 3 → ℕ)), (ls.map fun c => (os.map fun o => shared x.before o x.after c * val.val (x.id o)).sum).sum =
      (os.map fun o => (ls.map fun c => shared x.after c x.before o).sum * val.val (x.id o)).sum := by
    intro ls os
    induction ls with
    | nil => simp
    | cons l ls ih =>
      simp only [List.map_cons, List.sum_cons]
      rw [ih, ← List.sum_map_add]
      congr 1
      refine List.map_congr_left fun o _ => ?_
      rw [shared_comm]
      ring
  rw [e1, swap]
  congr 1
  refine List.map_congr_left fun o ho => ?_
  rw [sum_shared hI.conf hI.ccw hI.distinct (hull_sub' hr hs ho)]

/-- **C195** No value leaves the range of the values before. -/
theorem C195_bounds {x : Exec} (hr : x.Runs) (hs : x.Sound) (val : Transfer.P0 ℝ) {a b : ℝ}
    (hab : ∀ o ∈ x.before.cells, a ≤ val.val (x.id o) ∧ val.val (x.id o) ≤ b) {c : Fin 3 → ℕ} (hc : c ∈ x.after.cells) :
    a ≤ x.transfer val (x.id c) ∧ x.transfer val (x.id c) ≤ b := by
  have hpos := area_pos ((invariant hr hs).1.ccw c hc)
  have hsum : (x.before.cells.map fun o => shared x.before o x.after c / area x.after c).sum = 1 := by
    have e : (x.before.cells.map fun o => shared x.before o x.after c / area x.after c) =
        x.before.cells.map fun o => (area x.after c)⁻¹ * shared x.before o x.after c := List.map_congr_left fun o _ => by rw [div_eq_inv_mul]
    rw [e, List.sum_map_mul_left, sum_shared hs.conforming hs.ccw hs.distinct (hull_sub hr hs hc), inv_mul_cancel₀ hpos.ne']
  have key : ∀ os : List (Fin 3 → ℕ), (∀ o ∈ os, a ≤ val.val (x.id o) ∧ val.val (x.id o) ≤ b) →
      (os.map fun o => shared x.before o x.after c / area x.after c).sum * a ≤
        (os.map fun o => shared x.before o x.after c / area x.after c * val.val (x.id o)).sum ∧
      (os.map fun o => shared x.before o x.after c / area x.after c * val.val (x.id o)).sum ≤
        (os.map fun o => shared x.before o x.after c / area x.after c).sum * b := by
    intro os
    induction os with
    | nil => intro _; simp
    | cons o os ih =>
      intro ho
      obtain ⟨h1, h2⟩ := ih fun o' ho' => ho o' (by simp [ho'])
      obtain ⟨h3, h4⟩ := ho o (by simp)
      have hw : 0 ≤ shared x.before o x.after c / area x.after c := div_nonneg ENNReal.toReal_nonneg hpos.le
      simp only [List.map_cons, List.sum_cons, add_mul]
      exact ⟨add_le_add (mul_le_mul_of_nonneg_left h3 hw) h1, add_le_add (mul_le_mul_of_nonneg_left h4 hw) h2⟩
  rw [C195_average hr hs val hc]
  have := key _ hab
  rwa [hsum, one_mul, one_mul] at this

/-- **C195** An element inside an old element gets the value of that element; in particular elements that are not touched keep their values. -/
theorem C195_inside {x : Exec} (hr : x.Runs) (hs : x.Sound) (val : Transfer.P0 ℝ) {c o : Fin 3 → ℕ} (hc : c ∈ x.after.cells) (ho : o ∈ x.before.cells)
    (h : convexHull ℝ (Set.range fun i => x.after.pos (c i)) ⊆ convexHull ℝ (Set.range fun i => x.before.pos (o i))) :
    x.transfer val (x.id c) = val.val (x.id o) := by
  have hpos := area_pos ((invariant hr hs).1.ccw c hc)
  rw [C195_average hr hs val hc]
  have hterm : ∀ o' ∈ x.before.cells, shared x.before o' x.after c / area x.after c * val.val (x.id o') = shared x.before o' x.after c * ((area x.after c)⁻¹ * val.val (x.id o)) := by
    intro o' ho'
    by_cases h0 : shared x.before o' x.after c = 0
    · rw [h0]; simp
    · have : verts o' = verts o := by
        refine overlap_eq hs.conforming hs.ccw ho' ho (A := Refine.hull ℝ x.after c) h ?_
        intro h
        exact h0 ((congrArg ENNReal.toReal h).trans (by simp))
      rw [show x.id o' = x.id o from congrArg x.ident this]
      ring
  rw [List.map_congr_left hterm, List.sum_map_mul_right, sum_shared hs.conforming hs.ccw hs.distinct (hull_sub hr hs hc), mul_inv_cancel_left₀ hpos.ne']

end Verif.Conserve
