import Verif.Gmsh.Props
import Verif.Factory.SegBoundary
import Verif.Markers.Props
import Verif.BoundaryIds.Model
import Mathlib.Data.List.Sort

/-!
# Grids of msh files (properties C176, C177, C178)

The reader (`Gmsh.generate`) followed by the explicit factory: the calls of the reader are passed to the model of the segments (`Segments`) and
of the elements (`Markers`), then `createGrid` is called.
-/

namespace Verif.Gmsh

open Segments Factory Markers
open Verif.RefElem (sortIds sortIds_perm)

/-! ## Model -/

section
variable {K : Type}

/-- The part of a call that concerns vertices and segments (explicitgridfactory.hh:267-342). -/
def segCall : Call K → Option Segments.Call
  | .insertVertex _ => some .insertVertex
  | .insertElement _ _ => none
  | .insertInterface c m => some (.insertInterface c m)
  | .insertBoundarySegment c => some (.insertBoundarySegment c)
  | .insertInterfaceBoundarySegment c => some (.insertInterfaceBoundarySegment c)

/-- The part of a call that concerns vertices and elements (explicitgridfactory.hh:103-118, 312-326). The factory reads the first `d + 1` entries
of the vector of vertices (132-200); that there are no more is only asserted (107). -/
def facCall (d : Nat) [Zero K] : Call K → Option (FCall d K)
  | .insertVertex x => some (.vertex fun i => x.getD i 0)
  | .insertElement c m => some (.element (fun i => c.getD i 0) m)
  | _ => none

/-- gmshgridfactory.hh:88-180: the calls are made one after the other; an exception of the factory leaves `generate`. -/
def feed (s : Segments.State) : List (Call K) → Res Segments.State
  | [] => .ok s
  | c :: l =>
    match segCall c with
    | none => feed s l
    | some sc =>
      match Segments.step s sc with
      | .ok s' => feed s' l
      | .throws _ => .throws
      | .undefined => .undefined

end

section
variable {d : Nat} {K : Type} [Field K] [LinearOrder K]

/-- gmshgridfactory.hh:45-56, 69-73: the file is read and `createGrid` is called. `orient` and `S` belong to the dimension, `x` are the coordinates by which
elements are sorted, `order` is the order of iteration over `neighborMap`. The grid is given by its segments `g` and its elements `cells`. -/
def MshGrid (debug : Bool) (orient : (Fin (d + 1) → Nat) → Fin (d + 1) → Nat) (S : Scheme d) (x : Nat → K) (text : List (Line K))
    (g : Segments.Grid) (cells : List (Cell d)) : Prop :=
  ∃ (calls : List (Call K)) (s : Segments.State) (order : List (Finset Nat × Slot d)),
    generate debug d text = .ok calls ∧ feed {} calls = .ok s ∧
    Created orient x ((calls.filterMap (facCall d)).foldl fstep (Fac.init d K)) cells ∧
    order.Perm (createElements S (cells.map Cell.vertex)).st.fmap ∧
    g = createGrid s (boundaryKeys S (cells.map Cell.vertex) order)

end

/-! ## Specification -/

/-- The elements of dimension `g` in the file, in this order. -/
def ofDim (g : Nat) (elems : List Elem) : List Elem := elems.filter fun e => decide (typeDim e.type = some g)

/-- The vertices of an element of the file: nodes are numbered from 1, vertices from 0. -/
def Elem.verts (e : Elem) : List Nat := e.nodes.map (· - 1)

/-- How many elements of dimension `d` have all the vertices `vs`. -/
def carriers (d : Nat) (elems : List Elem) (vs : List Nat) : Nat :=
  (ofDim d elems).countP fun e => vs.all fun v => e.verts.contains v

/-- The vertices of the elements of dimension `d`. -/
def bulk (d : Nat) (elems : List Elem) : List (Fin (d + 1) → Nat) := (ofDim d elems).map fun e i => e.verts.getD i 0

/-- The file describes a mesh: all elements are simplices with known nodes, no facet is named twice, and the elements of dimension `d`
fit together. -/
structure Sheet {K : Type} (d : Nat) (nodes : List (Node K)) (elems : List Elem) : Prop where
  pos : ∀ n ∈ nodes, n.pos.length = d
  few : nodes.length ≤ 2 ^ 32
  simplex : ∀ e ∈ elems, ∃ g, typeDim e.type = some g ∧ e.nodes.length = g + 1
  range : ∀ e ∈ elems, ∀ n ∈ e.nodes, 1 ≤ n ∧ n ≤ nodes.length
  distinct : elems.Pairwise fun e e' => typeDim e.type = some (d - 1) → typeDim e'.type = some (d - 1) → ¬ e.nodes.Perm e'.nodes
  nodup : ∀ e ∈ elems, e.nodes.Nodup
  mesh : Mesh (bulk d elems)

/-! ## Proofs -/

section
variable {K : Type}

theorem feed_run (calls : List (Call K)) (s s' : Segments.State) (h : feed s calls = .ok s') :
    Segments.run s (calls.filterMap segCall) = some s' := by
  induction calls generalizing s with
  | nil => simpa [feed, Segments.run] using h
  | cons c l ih =>
    unfold feed at h
    cases hc : segCall c with
    | none =>
      rw [hc] at h
      simp only [List.filterMap_cons, hc]
      exact ih s h
    | some sc =>
      rw [hc] at h
      simp only [List.filterMap_cons, hc, Segments.run]
      cases hs : Segments.step s sc with
      | ok s1 =>
        simp only [hs] at h
        simpa [Outcome.state] using ih s1 h
      | throws s1 => simp [hs] at h
      | undefined => simp [hs] at h

theorem feed_append (s : Segments.State) (l m : List (Call K)) : feed s (l ++ m) = (feed s l).bind fun s' => feed s' m := by
  induction l generalizing s with
  | nil => rfl
  | cons c l ih =>
    simp only [List.cons_append, feed]
    cases segCall c with
    | none => exact ih s
    | some sc =>
      simp only
      cases Segments.step s sc with
      | ok s1 => exact ih s1
      | throws s1 => rfl
      | undefined => rfl

theorem feed_nodes (nodes : List (Node K)) (s : Segments.State) :
    feed s (nodes.map fun n => Call.insertVertex n.pos) = .ok { s with numVertices := s.numVertices + nodes.length } := by
  induction nodes generalizing s with
  | nil => rfl
  | cons n l ih =>
    simp only [List.map_cons, feed, segCall, Segments.step]
    rw [ih]
    simp only [List.length_cons]
    congr 2
    omega

/-- The state after some elements. -/
structure Fed (d n : Nat) (done : List Elem) (s : Segments.State) : Prop where
  num : s.numVertices = n
  keys : ∀ k ∈ s.boundarySegments.map Prod.fst, k.length = d ∧ ∃ e ∈ done, typeDim e.type = some (d - 1) ∧ sortIds e.verts = k

theorem verts_perm {e e' : Elem} {n : Nat} (h : ∀ x ∈ e.nodes, 1 ≤ x ∧ x ≤ n) (h' : ∀ x ∈ e'.nodes, 1 ≤ x ∧ x ≤ n) (hp : e.verts.Perm e'.verts) :
    e.nodes.Perm e'.nodes := by
  have key : ∀ l : List Nat, (∀ x ∈ l, 1 ≤ x ∧ x ≤ n) → (l.map (· - 1)).map (· + 1) = l := by
    intro l hl
    rw [List.map_map]
    conv_rhs => rw [← List.map_id l]
    apply List.map_congr_left
    intro x hx
    have := hl x hx
    simp only [Function.comp, id]
    omega
  have := hp.map (· + 1)
  unfold Elem.verts at this
  rwa [key _ h, key _ h'] at this

theorem sorted_some {s : Segments.State} {n : Nat} (hn : s.numVertices = n) {e : Elem} (h : ∀ x ∈ e.nodes, 1 ≤ x ∧ x ≤ n) :
    sortedIds s e.verts = some (sortIds e.verts) := by
  unfold sortedIds
  rw [if_pos]
  intro v hv
  obtain ⟨x, hx, rfl⟩ := List.mem_map.1 hv
  have := h x hx
  omega

theorem feed_elems {d n : Nat} (hd : 1 ≤ d) (elems done : List Elem) (s : Segments.State) (hF : Fed d n done s)
    (simplex : ∀ e ∈ done ++ elems, ∃ g, typeDim e.type = some g ∧ e.nodes.length = g + 1)
    (range : ∀ e ∈ done ++ elems, ∀ x ∈ e.nodes, 1 ≤ x ∧ x ≤ n)
    (distinct : (done ++ elems).Pairwise fun e e' => typeDim e.type = some (d - 1) → typeDim e'.type = some (d - 1) → ¬ e.nodes.Perm e'.nodes) :
    ∃ s', feed s (elems.flatMap (Elem.calls (K := K) d)) = .ok s' := by
  induction elems generalizing done s with
  | nil => exact ⟨s, rfl⟩
  | cons e l ih =>
    rw [List.flatMap_cons, feed_append]
    have he : e ∈ done ++ e :: l := by simp
    obtain ⟨g, hg, hl⟩ := simplex e he
    have hr := range e he
    have hlen : e.verts.length = g + 1 := by simp [Elem.verts, hl]
    -- it is enough to process `e`
    have next : ∀ s1, feed (K := K) s (Elem.calls d e) = .ok s1 → Fed d n (done ++ [e]) s1 →
        ∃ s', (feed (K := K) s (Elem.calls d e)).bind (fun s' => feed (K := K) s' (l.flatMap (Elem.calls d))) = .ok s' := by
      intro s1 h1 h2
      rw [h1]
      exact ih (done ++ [e]) s1 h2 (by simpa using simplex) (by simpa using range) (by simpa using distinct)
    have grow : Fed d n (done ++ [e]) s := ⟨hF.num, fun k hk => by
      obtain ⟨h1, e', h2, h3⟩ := hF.keys k hk
      exact ⟨h1, e', by simp [h2], h3⟩⟩
    have hcalls : Elem.calls (K := K) d e = if g = d then [.insertElement e.verts e.marker]
        else if g + 1 = d then [.insertInterface e.verts e.marker, .insertBoundarySegment e.verts]
        else if g + 2 = d then [.insertInterfaceBoundarySegment e.verts] else [] := by
      simp only [Elem.calls, hg, Elem.verts]
    by_cases h1 : g = d
    · refine next s ?_ grow
      rw [hcalls, if_pos h1]
      rfl
    by_cases h2 : g + 1 = d
    · have hgd : g = d - 1 := by omega
      rw [hgd] at hg
      have hnone : Map.find s.boundarySegments (sortIds e.verts) = none := by
        rw [Map.find_none_iff]
        intro hk
        obtain ⟨-, e', he', ht, hs⟩ := hF.keys _ hk
        have hp := (sort_eq_iff _ _).1 hs
        exact (List.pairwise_append.1 distinct).2.2 e' he' e (by simp) ht hg
          (verts_perm (range e' (by simp [he'])) hr hp)
      refine next _ ?_ (Fed.mk (d := d) (n := n) (done := done ++ [e]) (s := { s with
          interfaceSegments := Map.insert s.interfaceSegments (sortIds e.verts) e.marker
          boundarySegments := Map.insert s.boundarySegments (sortIds e.verts) s.countBoundarySegments
          countBoundarySegments := s.countBoundarySegments + 1 }) hF.num ?_)
      · rw [hcalls, if_neg h1, if_pos h2]
        simp only [feed, segCall, Segments.step, sorted_some hF.num hr]
        rw [show sortedIds { s with interfaceSegments := Map.insert s.interfaceSegments (sortIds e.verts) e.marker } e.verts =
          some (sortIds e.verts) from sorted_some hF.num hr]
        simp only [hnone]
      · intro k hk
        rw [Map.mem_keys_insert] at hk
        rcases hk with hk | rfl
        · exact grow.keys k hk
        · exact ⟨by rw [(sortIds_perm _).length_eq, hlen, h2], e, by simp, hg, rfl⟩
    by_cases h3 : g + 2 = d
    · have hnone : Map.find s.boundarySegments (sortIds e.verts) = none := by
        rw [Map.find_none_iff]
        intro hk
        have := (hF.keys _ hk).1
        rw [(sortIds_perm _).length_eq, hlen] at this
        omega
      refine next _ ?_ (Fed.mk (d := d) (n := n) (done := done ++ [e]) (s := { s with
          interfaceBoundarySegments := Map.insert s.interfaceBoundarySegments (sortIds e.verts) s.countInterfaceBoundarySegments
          countInterfaceBoundarySegments := s.countInterfaceBoundarySegments + 1 }) hF.num grow.keys)
      rw [hcalls, if_neg h1, if_neg h2, if_pos h3]
      simp only [feed, segCall, Segments.step, sorted_some hF.num hr, hnone]
    · refine next s ?_ grow
      rw [hcalls, if_neg h1, if_neg h2, if_neg h3]
      rfl

theorem valid {d : Nat} {nodes : List (Node K)} {elems : List Elem} (hS : Sheet d nodes elems) :
    ∀ e ∈ elems, e.Valid ∧ e.nodes ≠ [] := by
  intro e he
  obtain ⟨g, hg, hl⟩ := hS.simplex e he
  refine ⟨⟨⟨g, hg⟩, fun n hn => ?_⟩, ?_⟩
  · have h1 := hS.range e he n hn
    exact ⟨h1.1, h1.2.trans hS.few⟩
  · intro h
    rw [h] at hl
    simp at hl

/-- The calls that concern segments, element by element. -/
theorem seg_mem {d : Nat} (hd : 1 ≤ d) (nodes : List (Node K)) (elems : List Elem) (c : Segments.Call) :
    c ∈ (expected d nodes elems).filterMap segCall ↔ (c = .insertVertex ∧ nodes ≠ []) ∨
      ∃ e ∈ elems, (typeDim e.type = some (d - 1) ∧ (c = .insertInterface e.verts e.marker ∨ c = .insertBoundarySegment e.verts)) ∨
        (∃ g, typeDim e.type = some g ∧ g + 2 = d ∧ c = .insertInterfaceBoundarySegment e.verts) := by
  unfold expected
  rw [List.filterMap_append, List.mem_append]
  apply or_congr
  · rw [List.filterMap_map, List.mem_filterMap]
    constructor
    · rintro ⟨n, hn, h⟩
      simp only [Function.comp, segCall, Option.some.injEq] at h
      exact ⟨h.symm, List.ne_nil_of_mem hn⟩
    · rintro ⟨rfl, h⟩
      obtain ⟨n, hn⟩ := List.exists_mem_of_ne_nil _ h
      exact ⟨n, hn, rfl⟩
  · rw [List.mem_filterMap]
    constructor
    · rintro ⟨c', hc', h⟩
      obtain ⟨e, he, hc'⟩ := List.mem_flatMap.1 hc'
      refine ⟨e, he, ?_⟩
      unfold Elem.calls at hc'
      cases ht : typeDim e.type with
      | none => simp [ht] at hc'
      | some g =>
        simp only [ht] at hc'
        split at hc'
        · simp only [List.mem_singleton] at hc'
          subst hc'
          simp [segCall] at h
        · split at hc'
          · rename_i h2
            simp only [List.mem_cons, List.not_mem_nil, or_false] at hc'
            have hg : g = d - 1 := by omega
            subst hg
            rcases hc' with rfl | rfl
            · simp only [segCall, Option.some.injEq] at h
              exact Or.inl ⟨rfl, Or.inl h.symm⟩
            · simp only [segCall, Option.some.injEq] at h
              exact Or.inl ⟨rfl, Or.inr h.symm⟩
          · split at hc'
            · rename_i h3
              simp only [List.mem_singleton] at hc'
              subst hc'
              simp only [segCall, Option.some.injEq] at h
              exact Or.inr ⟨g, rfl, h3, h.symm⟩
            · simp at hc'
    · rintro ⟨e, he, h⟩
      rcases h with ⟨ht, h⟩ | ⟨g, ht, hg, rfl⟩
      · have hc : Elem.calls (K := K) d e = [.insertInterface e.verts e.marker, .insertBoundarySegment e.verts] := by
          simp only [Elem.calls, ht, Elem.verts]
          rw [if_neg (by omega), if_pos (by omega)]
        rcases h with rfl | rfl
        · exact ⟨.insertInterface e.verts e.marker, List.mem_flatMap.2 ⟨e, he, by rw [hc]; simp⟩, rfl⟩
        · exact ⟨.insertBoundarySegment e.verts, List.mem_flatMap.2 ⟨e, he, by rw [hc]; simp⟩, rfl⟩
      · refine ⟨.insertInterfaceBoundarySegment e.verts, List.mem_flatMap.2 ⟨e, he, ?_⟩, rfl⟩
        simp only [Elem.calls, ht, Elem.verts]
        rw [if_neg (by omega), if_neg (by omega), if_pos hg]
        simp

theorem firstMarker_of {h : List Segments.Call} {vs : List Nat} {m : Nat}
    (hu : ∀ ws m', Segments.Call.insertInterface ws m' ∈ h → ws.Perm vs → m' = m)
    (hm : ∃ ws m', Segments.Call.insertInterface ws m' ∈ h ∧ ws.Perm vs) : firstMarker vs h = some m := by
  induction h with
  | nil =>
    obtain ⟨_, _, hm, _⟩ := hm
    simp at hm
  | cons c h ih =>
    have hu' : ∀ ws m', Segments.Call.insertInterface ws m' ∈ h → ws.Perm vs → m' = m :=
      fun ws m' hc => hu ws m' (List.mem_cons_of_mem _ hc)
    have hm' : (∀ ws m', c = .insertInterface ws m' → ¬ ws.Perm vs) → ∃ ws m', Segments.Call.insertInterface ws m' ∈ h ∧ ws.Perm vs := by
      intro hc
      obtain ⟨ws, m', h1, h2⟩ := hm
      rcases List.mem_cons.1 h1 with h1 | h1
      · exact absurd h2 (hc ws m' h1.symm)
      · exact ⟨ws, m', h1, h2⟩
    cases c with
    | insertInterface ws m' =>
      unfold firstMarker
      split
      · rename_i hp
        rw [hu ws m' List.mem_cons_self hp]
      · rename_i hp
        refine ih hu' (hm' ?_)
        intro ws' m'' he
        cases he
        exact hp
    | insertVertex => exact ih hu' (hm' (by simp))
    | insertBoundarySegment ws => exact ih hu' (hm' (by simp))
    | insertInterfaceBoundarySegment ws => exact ih hu' (hm' (by simp))

theorem getD_verts {d : Nat} {e : Elem} (hl : e.verts.length = d + 1) :
    Finset.univ.image (fun i : Fin (d + 1) => e.verts.getD i 0) = e.verts.toFinset := by
  ext x
  simp only [Finset.mem_image, Finset.mem_univ, true_and, List.mem_toFinset]
  constructor
  · rintro ⟨i, rfl⟩
    rw [List.getD_eq_getElem _ _ (by omega)]
    exact List.getElem_mem _
  · intro hx
    obtain ⟨i, hi, rfl⟩ := List.mem_iff_getElem.1 hx
    exact ⟨⟨i, by omega⟩, List.getD_eq_getElem _ _ hi⟩

/-- A set of `d` vertices is a facet of a simplex exactly if all of them are vertices of the simplex. -/
theorem facet_iff {d : Nat} {v : Fin (d + 1) → Nat} (hv : Function.Injective v) {F : Finset Nat} (hF : F.card = d) :
    (∃ i, facetOf v i = F) ↔ F ⊆ Finset.univ.image v := by
  constructor
  · rintro ⟨i, rfl⟩
    unfold facetOf
    exact Finset.image_subset_image (Finset.subset_univ _)
  · intro h
    have hcard : (Finset.univ.image v).card = d + 1 := by rw [Finset.card_image_of_injective _ hv]; simp
    obtain ⟨x, hx, hxF⟩ : ∃ x ∈ Finset.univ.image v, x ∉ F := by
      by_contra hcon
      simp only [not_exists, not_and, not_not] at hcon
      have := Finset.card_le_card (show Finset.univ.image v ⊆ F from hcon)
      omega
    obtain ⟨i, -, rfl⟩ := Finset.mem_image.1 hx
    refine ⟨i, (Finset.eq_of_subset_of_card_le ?_ ?_).symm⟩
    · intro y hy
      obtain ⟨j, -, rfl⟩ := Finset.mem_image.1 (h hy)
      refine Finset.mem_image.2 ⟨j, ?_, rfl⟩
      rw [Finset.mem_erase]
      refine ⟨fun hj => hxF (hj ▸ hy), Finset.mem_univ _⟩
    · rw [card_facetOf hv, hF]

theorem mult_bulk {d : Nat} {elems : List Elem} (hm : Mesh (bulk d elems)) (hl : ∀ e ∈ ofDim d elems, e.verts.length = d + 1)
    {vs : List Nat} (hn : vs.Nodup) (hc : vs.length = d) : mult (bulk d elems) vs.toFinset = carriers d elems vs := by
  unfold mult bulk carriers
  rw [List.countP_map]
  apply List.countP_congr
  intro e he
  have hi := hm.simplices _ (List.mem_map.2 ⟨e, he, rfl⟩)
  simp only [Function.comp, decide_eq_true_eq]
  rw [facet_iff hi (by rw [List.toFinset_card_of_nodup hn, hc]), getD_verts (hl e he)]
  simp [Finset.subset_iff]

end

section
variable {d : Nat} {K : Type} [Field K] [LinearOrder K]

/-- The inserted elements are those of the file. -/
theorem inserted_expected (nodes : List (Node K)) (elems : List Elem) :
    inserted ((expected d nodes elems).filterMap (facCall d)) =
      (ofDim d elems).map fun e => ((fun i => e.verts.getD i 0 : Fin (d + 1) → Nat), e.marker) := by
  unfold expected
  rw [List.filterMap_append]
  have h1 : ∀ (l : List (Node K)) (r : List (FCall d K)),
      inserted ((l.map fun n => Call.insertVertex n.pos).filterMap (facCall d) ++ r) = inserted r := by
    intro l r
    induction l with
    | nil => rfl
    | cons n l ih => simpa [facCall, inserted] using ih
  rw [h1]
  induction elems with
  | nil => rfl
  | cons e l ih =>
    rw [List.flatMap_cons, List.filterMap_append]
    have h2 : ∀ r : List (FCall d K), inserted ((Elem.calls (K := K) d e).filterMap (facCall d) ++ r) =
        (if typeDim e.type = some d then [((fun i => e.verts.getD i 0 : Fin (d + 1) → Nat), e.marker)] else []) ++ inserted r := by
      intro r
      unfold Elem.calls
      cases ht : typeDim e.type with
      | none => simp
      | some g =>
        simp only
        split
        · rename_i hg
          simp [facCall, inserted, hg, Elem.verts]
        · rename_i hg
          have hg' : ¬ (some g = some d) := by simpa using hg
          rw [show (if some g = some d then [((fun i => e.verts.getD i 0 : Fin (d + 1) → Nat), e.marker)] else []) = [] from if_neg hg']
          split
          · rfl
          · split
            · rfl
            · rfl
    rw [h2, ih]
    unfold ofDim
    rw [List.filter_cons]
    by_cases ht : typeDim e.type = some d
    · simp [ht]
    · simp [ht]

/-- All that is known about a grid that was read. -/
theorem grid_parts {debug : Bool} {orient : (Fin (d + 1) → Nat) → Fin (d + 1) → Nat} {S : Scheme d} {x : Nat → K}
    {toReal : Nat → K} {frac : K → Option Nat} {nodes : List (Node K)} {elems : List Elem} {head mid tail : List (Line K)}
    (hhead : ∀ l ∈ head, l.isMarker .nodes = false) (hmid : ∀ l ∈ mid, l.isMarker .elements = false) (hS : Sheet d nodes elems)
    {g : Segments.Grid} {cells : List (Cell d)}
    (h : MshGrid debug orient S x (file toReal frac nodes elems head mid tail) g cells) :
    ∃ s order, Segments.run {} ((expected d nodes elems).filterMap segCall) = some s ∧
      Created orient x (((expected d nodes elems).filterMap (facCall d)).foldl fstep (Fac.init d K)) cells ∧
      order.Perm (createElements S (cells.map Cell.vertex)).st.fmap ∧
      g = createGrid s (boundaryKeys S (cells.map Cell.vertex) order) := by
  obtain ⟨calls, s, order, h1, h2, h3, h4, h5⟩ := h
  rw [C18_file debug d toReal frac nodes elems head mid tail hhead hmid hS.pos (valid hS)] at h1
  cases h1
  exact ⟨s, order, feed_run _ _ _ h2, h3, h4, h5⟩

/-- The vertices of the elements of the grid are those of the file, in another order and turned. -/
theorem created_perm {orient : (Fin (d + 1) → Nat) → Fin (d + 1) → Nat} {x : Nat → K} {nodes : List (Node K)} {elems : List Elem} {cells : List (Cell d)}
    (h : Created orient x (((expected d nodes elems).filterMap (facCall d)).foldl fstep (Fac.init d K)) cells) :
    (cells.map Cell.vertex).Perm ((bulk d elems).map orient) := by
  obtain ⟨L, hp, -, rfl⟩ := h
  rw [(stored_eq _ _).1] at hp
  simp only [Fac.init, List.nil_append] at hp
  rw [inserted_expected] at hp
  have h1 := (hp.map fun t => orient t.1)
  unfold createCells
  rw [List.map_map]
  refine h1.trans ?_
  rw [List.map_map]
  have : ((fun t : (Fin (d + 1) → Nat) × Nat × Nat => orient t.1) ∘ fun e : ((Fin (d + 1) → Nat) × Nat) × Nat => (e.1.1, e.2, e.1.2)) =
      (fun e => orient e.1) ∘ Prod.fst := rfl
  rw [this, ← List.map_map, List.zipIdx_map_fst, List.map_map]
  unfold bulk
  rw [List.map_map]
  exact List.Perm.refl _

theorem mult_perm {E L : List (Fin (d + 1) → Nat)} {f : (Fin (d + 1) → Nat) → Fin (d + 1) → Nat} (hp : E.Perm (L.map f))
    (hf : ∀ v, ∃ σ : Equiv.Perm (Fin (d + 1)), f v = v ∘ σ) (hL : Mesh L) {F : Finset Nat} (hF : F.card = d) : mult E F = mult L F := by
  unfold mult
  rw [hp.countP_eq, List.countP_map]
  apply List.countP_congr
  intro v hv
  obtain ⟨σ, hσ⟩ := hf v
  have hi := hL.simplices v hv
  simp only [Function.comp, decide_eq_true_eq]
  rw [facet_iff hi hF, hσ, facet_iff (hi.comp σ.injective) hF, ← Finset.image_image, Finset.image_univ_of_surjective σ.surjective]

theorem elements {debug : Bool} {orient : (Fin (d + 1) → Nat) → Fin (d + 1) → Nat}
    (ho : ∀ v, ∃ σ : Equiv.Perm (Fin (d + 1)), orient v = v ∘ σ) {S : Scheme d} {x : Nat → K}
    {toReal : Nat → K} {frac : K → Option Nat} {nodes : List (Node K)} {elems : List Elem} {head mid tail : List (Line K)}
    (hhead : ∀ l ∈ head, l.isMarker .nodes = false) (hmid : ∀ l ∈ mid, l.isMarker .elements = false) (hS : Sheet d nodes elems)
    {g : Segments.Grid} {cells : List (Cell d)}
    (h : MshGrid debug orient S x (file toReal frac nodes elems head mid tail) g cells) :
    cells.length = (ofDim d elems).length ∧ ∀ k e, (ofDim d elems)[k]? = some e → ∃ c ∈ cells, c.insertionIndex = k ∧ c.domainMarker = e.marker ∧
      Finset.univ.image c.vertex = e.verts.toFinset ∧ ∀ c' ∈ cells, c'.insertionIndex = k → c' = c := by
  obtain ⟨s, order, -, hc, -, -⟩ := grid_parts hhead hmid hS h
  have ho' : ∀ v, Finset.univ.image (orient v) = Finset.univ.image v := by
    intro v
    obtain ⟨σ, hσ⟩ := ho v
    rw [hσ, ← Finset.image_image, Finset.image_univ_of_surjective σ.surjective]
  obtain ⟨h1, h2⟩ := Markers.created orient ho' x _ cells hc
  rw [inserted_expected] at h1 h2
  refine ⟨by simpa using h1, fun k e hk => ?_⟩
  obtain ⟨c, hc1, e1, e2, e3, e4⟩ := h2 k (fun i => e.verts.getD i 0) e.marker (by simp [hk])
  refine ⟨c, hc1, e1, e2, ?_, e4⟩
  rw [e3]
  have he : e ∈ ofDim d elems := List.mem_of_getElem? hk
  unfold ofDim at he
  rw [List.mem_filter, decide_eq_true_eq] at he
  obtain ⟨g', hg', hl⟩ := hS.simplex e he.1
  rw [he.2] at hg'
  cases hg'
  exact getD_verts (by simp [Elem.verts, hl])

theorem segments {debug : Bool} (hd : 1 ≤ d) {orient : (Fin (d + 1) → Nat) → Fin (d + 1) → Nat}
    (ho : ∀ v, ∃ σ : Equiv.Perm (Fin (d + 1)), orient v = v ∘ σ) {S : Scheme d} (hval : S.Valid) {x : Nat → K}
    {toReal : Nat → K} {frac : K → Option Nat} {nodes : List (Node K)} {elems : List Elem} {head mid tail : List (Line K)}
    (hhead : ∀ l ∈ head, l.isMarker .nodes = false) (hmid : ∀ l ∈ mid, l.isMarker .elements = false) (hS : Sheet d nodes elems)
    {g : Segments.Grid} {cells : List (Cell d)}
    (h : MshGrid debug orient S x (file toReal frac nodes elems head mid tail) g cells) (vs : List Nat) :
    (IsInterfaceSegment g vs ↔ ∃ e ∈ ofDim (d - 1) elems, e.verts.Perm vs ∧ carriers d elems vs ≠ 1) ∧
      (IsBoundarySegment g vs ↔ ∃ e ∈ ofDim (d - 1) elems, e.verts.Perm vs ∧ carriers d elems vs = 1) ∧
      ∀ e ∈ ofDim (d - 1) elems, e.verts.Perm vs → carriers d elems vs ≠ 1 → Map.find g.interfaceSegments (sortIds vs) = some e.marker := by
  obtain ⟨s, order, hrun, hc, hord, rfl⟩ := grid_parts hhead hmid hS h
  have hperm := created_perm hc
  have hM := hS.mesh.of_perm hperm ho
  have hci : CalledInterface ((expected d nodes elems).filterMap segCall) vs ↔ ∃ e ∈ ofDim (d - 1) elems, e.verts.Perm vs := by
    unfold CalledInterface ofDim
    constructor
    · rintro ⟨ws, m, hm, hp⟩
      rw [seg_mem hd] at hm
      rcases hm with ⟨hm, -⟩ | ⟨e, he, ⟨ht, hm | hm⟩ | ⟨_, _, _, hm⟩⟩
      · cases hm
      · cases hm
        exact ⟨e, by simp [he, ht], hp⟩
      · cases hm
      · cases hm
    · rintro ⟨e, he, hp⟩
      rw [List.mem_filter, decide_eq_true_eq] at he
      exact ⟨e.verts, e.marker, (seg_mem hd _ _ _).2 (Or.inr ⟨e, he.1, Or.inl ⟨he.2, Or.inl rfl⟩⟩), hp⟩
  have hcb : CalledBoundary ((expected d nodes elems).filterMap segCall) vs ↔ ∃ e ∈ ofDim (d - 1) elems, e.verts.Perm vs := by
    unfold CalledBoundary ofDim
    constructor
    · rintro ⟨ws, hm, hp⟩
      rw [seg_mem hd] at hm
      rcases hm with ⟨hm, -⟩ | ⟨e, he, ⟨ht, hm | hm⟩ | ⟨_, _, _, hm⟩⟩
      · cases hm
      · cases hm
      · cases hm
        exact ⟨e, by simp [he, ht], hp⟩
      · cases hm
    · rintro ⟨e, he, hp⟩
      rw [List.mem_filter, decide_eq_true_eq] at he
      exact ⟨e.verts, (seg_mem hd _ _ _).2 (Or.inr ⟨e, he.1, Or.inl ⟨he.2, Or.inr rfl⟩⟩), hp⟩
  have hon : (∃ e ∈ ofDim (d - 1) elems, e.verts.Perm vs) →
      (OnBoundary (boundaryKeys S (cells.map Cell.vertex) order) vs ↔ carriers d elems vs = 1) := by
    rintro ⟨e, he, hp⟩
    unfold ofDim at he
    rw [List.mem_filter, decide_eq_true_eq] at he
    obtain ⟨g', hg', hl⟩ := hS.simplex e he.1
    rw [he.2] at hg'
    cases hg'
    have hlen : vs.length = d := by
      rw [← hp.length_eq]
      simp only [Elem.verts, List.length_map, hl]
      omega
    have hnd : vs.Nodup := by
      rw [← hp.nodup_iff]
      unfold Elem.verts
      refine List.Nodup.map_on ?_ (hS.nodup e he.1)
      intro a ha b hb hab
      have h1 := hS.range e he.1 a ha
      have h2 := hS.range e he.1 b hb
      omega
    have hl' : ∀ e ∈ ofDim d elems, e.verts.length = d + 1 := by
      intro e he
      unfold ofDim at he
      rw [List.mem_filter, decide_eq_true_eq] at he
      obtain ⟨g', hg', hl⟩ := hS.simplex e he.1
      rw [he.2] at hg'
      cases hg'
      simp [Elem.verts, hl]
    rw [onBoundary_iff hval hM order hord, mult_perm hperm ho hS.mesh (by rw [List.toFinset_card_of_nodup hnd, hlen]),
      mult_bulk hS.mesh hl' hnd hlen]
    simp [hnd]
  obtain ⟨c1, c2⟩ := C16_characterisation _ s hrun (boundaryKeys S (cells.map Cell.vertex) order) vs
  have hI : IsInterfaceSegment (createGrid s (boundaryKeys S (cells.map Cell.vertex) order)) vs ↔
      ∃ e ∈ ofDim (d - 1) elems, e.verts.Perm vs ∧ carriers d elems vs ≠ 1 := by
    rw [c1, hci, hcb]
    constructor
    · rintro ⟨⟨e, he, hp⟩, hn⟩
      refine ⟨e, he, hp, fun h1 => hn ⟨(hon ⟨e, he, hp⟩).2 h1, e, he, hp⟩⟩
    · rintro ⟨e, he, hp, h1⟩
      exact ⟨⟨e, he, hp⟩, fun hn => h1 ((hon ⟨e, he, hp⟩).1 hn.1)⟩
  refine ⟨hI, ?_, ?_⟩
  · rw [c2, hci, hcb]
    constructor
    · rintro ⟨⟨e, he, hp⟩, hn⟩
      refine ⟨e, he, hp, ?_⟩
      rcases hn with hn | hn
      · exact absurd ⟨e, he, hp⟩ hn
      · exact (hon ⟨e, he, hp⟩).1 hn
    · rintro ⟨e, he, hp, h1⟩
      exact ⟨⟨e, he, hp⟩, Or.inr ((hon ⟨e, he, hp⟩).2 h1)⟩
  · intro e he hp h1
    rw [C16_marker _ s hrun _ vs (hI.2 ⟨e, he, hp, h1⟩)]
    refine firstMarker_of ?_ (hci.2 ⟨e, he, hp⟩)
    intro ws m' hm hp'
    rw [seg_mem hd] at hm
    rcases hm with ⟨hm, -⟩ | ⟨e', he', ⟨ht, hm | hm⟩ | ⟨_, _, _, hm⟩⟩
    · cases hm
    · cases hm
      -- the two elements are the same
      unfold ofDim at he
      rw [List.mem_filter, decide_eq_true_eq] at he
      have hnn : e'.nodes.Perm e.nodes := verts_perm (hS.range e' he') (hS.range e he.1) (hp'.trans hp.symm)
      by_contra hne
      have hne' : e' ≠ e := fun h => hne (by rw [h])
      obtain ⟨i, hi, rfl⟩ := List.mem_iff_getElem.1 he'
      obtain ⟨j, hj, rfl⟩ := List.mem_iff_getElem.1 he.1
      have hdis := List.pairwise_iff_getElem.1 hS.distinct
      rcases Nat.lt_trichotomy i j with hij | hij | hij
      · exact hdis i j hi hj hij ht he.2 hnn
      · subst hij
        exact hne' rfl
      · exact hdis j i hj hi hij he.2 ht hnn.symm
    · cases hm
    · cases hm

/-- A grid is read from every file that describes a mesh. -/
theorem readable (debug : Bool) (hd : 1 ≤ d) (orient : (Fin (d + 1) → Nat) → Fin (d + 1) → Nat) (S : Scheme d) (x : Nat → K)
    (toReal : Nat → K) (frac : K → Option Nat) {nodes : List (Node K)} {elems : List Elem} {head mid tail : List (Line K)}
    (hhead : ∀ l ∈ head, l.isMarker .nodes = false) (hmid : ∀ l ∈ mid, l.isMarker .elements = false) (hS : Sheet d nodes elems) :
    ∃ g cells, MshGrid debug orient S x (file toReal frac nodes elems head mid tail) g cells := by
  obtain ⟨s, hs⟩ := feed_elems (K := K) hd elems [] { ({} : Segments.State) with numVertices := 0 + nodes.length }
    (Fed.mk (d := d) (n := nodes.length) (by simp) (by simp)) (by simpa using hS.simplex) (by simpa using hS.range) (by simpa using hS.distinct)
  have hf : feed {} (expected d nodes elems) = .ok s := by
    unfold expected
    rw [feed_append, feed_nodes]
    exact hs
  classical
  let r : ((Fin (d + 1) → Nat) × Nat × Nat) → ((Fin (d + 1) → Nat) × Nat × Nat) → Prop := fun a b => sumX x a.1 ≤ sumX x b.1
  have : Std.Total r := ⟨fun a b => le_total _ _⟩
  have : IsTrans _ r := ⟨fun a b c h1 h2 => le_trans h1 h2⟩
  let L := List.insertionSort r (((expected d nodes elems).filterMap (facCall d)).foldl fstep (Fac.init d K)).elements
  refine ⟨_, createCells orient L, expected d nodes elems, s, _,
    C18_file debug d toReal frac nodes elems head mid tail hhead hmid hS.pos (valid hS), hf, ⟨L, List.perm_insertionSort _ _, ?_, rfl⟩,
    List.Perm.refl _, rfl⟩
  exact (List.pairwise_insertionSort r _).imp fun h => not_lt.2 h

end

theorem bind_ok {A B : Type} {r : Res A} {f : A → Res B} {b : B} (h : r.bind f = .ok b) : ∃ a, r = .ok a ∧ f a = .ok b := by
  cases r with
  | ok a => exact ⟨a, rfl, h⟩
  | abort => cases h
  | throws => cases h
  | undefined => cases h

/-- A facet that is named twice: an exception leaves `generate`, or vertices do not exist. -/
theorem duplicate {K : Type} {d : Nat} (hd : 1 ≤ d) (nodes : List (Node K)) (pre post : List Elem) (e e' : Elem) (he : e ∈ pre)
    (ht : typeDim e.type = some (d - 1)) (ht' : typeDim e'.type = some (d - 1)) (hp : e.nodes.Perm e'.nodes) (s : Segments.State) :
    feed {} (expected d nodes (pre ++ e' :: post)) ≠ .ok s := by
  intro h
  have hx : expected d nodes (pre ++ e' :: post) = expected d nodes pre ++ Elem.calls d e' ++ post.flatMap (Elem.calls d) := by
    simp [expected]
  rw [hx, feed_append, feed_append] at h
  obtain ⟨s2, h2, -⟩ := bind_ok h
  obtain ⟨s1, h1, h2⟩ := bind_ok h2
  have hc : Elem.calls (K := K) d e' = [.insertInterface e'.verts e'.marker, .insertBoundarySegment e'.verts] := by
    simp only [Elem.calls, ht', Elem.verts]
    rw [if_neg (by omega), if_pos (by omega)]
  rw [hc] at h2
  have hr := feed_run _ _ _ h1
  have hb : CalledBoundary ((expected d nodes pre).filterMap segCall) e'.verts :=
    ⟨e.verts, (seg_mem hd _ _ _).2 (Or.inr ⟨e, he, Or.inl ⟨ht, Or.inr rfl⟩⟩), hp.map _⟩
  have hn := (C15_numbered _ _ hr).2.2 e'.verts |>.2 hb
  rw [← Map.find_isSome_iff] at hn
  obtain ⟨i, hi⟩ := hn
  by_cases hv : ∀ v ∈ e'.verts, v < s1.numVertices
  · have hs : sortedIds s1 e'.verts = some (sortIds e'.verts) := by unfold sortedIds; rw [if_pos hv]
    simp only [feed, segCall, Segments.step, hs] at h2
    rw [show sortedIds { s1 with interfaceSegments := Map.insert s1.interfaceSegments (sortIds e'.verts) e'.marker } e'.verts =
      some (sortIds e'.verts) from hs] at h2
    simp [hi] at h2
  · have hs : sortedIds s1 e'.verts = none := by unfold sortedIds; rw [if_neg hv]
    simp [feed, segCall, Segments.step, hs] at h2

/-! ## C176 -/

section
variable {K : Type} [Field K] [LinearOrder K] [IsStrictOrderedRing K]

omit [IsStrictOrderedRing K] in
/-- **C176**: every msh file that describes a mesh can be read, in debug and release builds. -/
theorem C176_readable_2d (debug : Bool) (x y toReal : Nat → K) (frac : K → Option Nat) {nodes : List (Node K)} {elems : List Elem}
    {head mid tail : List (Line K)} (hhead : ∀ l ∈ head, l.isMarker .nodes = false) (hmid : ∀ l ∈ mid, l.isMarker .elements = false)
    (hS : Sheet 2 nodes elems) : ∃ g cells, MshGrid debug (orient2 x y) scheme2 x (file toReal frac nodes elems head mid tail) g cells :=
  readable debug (by decide) _ _ x toReal frac hhead hmid hS

omit [IsStrictOrderedRing K] in
/-- **C176** in 3D. -/
theorem C176_readable_3d (debug : Bool) (x toReal : Nat → K) (frac : K → Option Nat) {nodes : List (Node K)} {elems : List Elem}
    {head mid tail : List (Line K)} (hhead : ∀ l ∈ head, l.isMarker .nodes = false) (hmid : ∀ l ∈ mid, l.isMarker .elements = false)
    (hS : Sheet 3 nodes elems) : ∃ g cells, MshGrid debug orient3 scheme3 x (file toReal frac nodes elems head mid tail) g cells :=
  readable debug (by decide) _ _ x toReal frac hhead hmid hS

/-- **C176**: the elements of the grid are the triangles of the file: the one with insertion index `k` has the vertices and the last tag of the `k`-th. -/
theorem C176_elements_2d {debug : Bool} {x y toReal : Nat → K} {frac : K → Option Nat} {nodes : List (Node K)} {elems : List Elem}
    {head mid tail : List (Line K)} (hhead : ∀ l ∈ head, l.isMarker .nodes = false) (hmid : ∀ l ∈ mid, l.isMarker .elements = false)
    (hS : Sheet 2 nodes elems) {g : Segments.Grid} {cells : List (Cell 2)}
    (h : MshGrid debug (orient2 x y) scheme2 x (file toReal frac nodes elems head mid tail) g cells) :
    cells.length = (ofDim 2 elems).length ∧ ∀ k e, (ofDim 2 elems)[k]? = some e → ∃ c ∈ cells, c.insertionIndex = k ∧ c.domainMarker = e.marker ∧
      Finset.univ.image c.vertex = e.verts.toFinset ∧ ∀ c' ∈ cells, c'.insertionIndex = k → c' = c :=
  elements (orient2_perm x y) hhead hmid hS h

omit [IsStrictOrderedRing K] in
/-- **C176** in 3D: tetrahedra. -/
theorem C176_elements_3d {debug : Bool} {x toReal : Nat → K} {frac : K → Option Nat} {nodes : List (Node K)} {elems : List Elem}
    {head mid tail : List (Line K)} (hhead : ∀ l ∈ head, l.isMarker .nodes = false) (hmid : ∀ l ∈ mid, l.isMarker .elements = false)
    (hS : Sheet 3 nodes elems) {g : Segments.Grid} {cells : List (Cell 3)}
    (h : MshGrid debug orient3 scheme3 x (file toReal frac nodes elems head mid tail) g cells) :
    cells.length = (ofDim 3 elems).length ∧ ∀ k e, (ofDim 3 elems)[k]? = some e → ∃ c ∈ cells, c.insertionIndex = k ∧ c.domainMarker = e.marker ∧
      Finset.univ.image c.vertex = e.verts.toFinset ∧ ∀ c' ∈ cells, c'.insertionIndex = k → c' = c :=
  elements (fun _ => ⟨1, rfl⟩) hhead hmid hS h

/-- **C176**: a facet is an interface segment exactly if it is a line of the file and does not belong to exactly one triangle of the file; its marker is the
last tag of the line. It is a boundary segment exactly if it is a line of the file and belongs to exactly one triangle. -/
theorem C176_segments_2d {debug : Bool} {x y toReal : Nat → K} {frac : K → Option Nat} {nodes : List (Node K)} {elems : List Elem}
    {head mid tail : List (Line K)} (hhead : ∀ l ∈ head, l.isMarker .nodes = false) (hmid : ∀ l ∈ mid, l.isMarker .elements = false)
    (hS : Sheet 2 nodes elems) {g : Segments.Grid} {cells : List (Cell 2)}
    (h : MshGrid debug (orient2 x y) scheme2 x (file toReal frac nodes elems head mid tail) g cells) (vs : List Nat) :
    (IsInterfaceSegment g vs ↔ ∃ e ∈ ofDim 1 elems, e.verts.Perm vs ∧ carriers 2 elems vs ≠ 1) ∧
      (IsBoundarySegment g vs ↔ ∃ e ∈ ofDim 1 elems, e.verts.Perm vs ∧ carriers 2 elems vs = 1) ∧
      ∀ e ∈ ofDim 1 elems, e.verts.Perm vs → carriers 2 elems vs ≠ 1 → Map.find g.interfaceSegments (sortIds vs) = some e.marker :=
  segments (by decide) (orient2_perm x y) scheme2_valid hhead hmid hS h vs

omit [IsStrictOrderedRing K] in
/-- **C176** in 3D: triangles of the file as segments. -/
theorem C176_segments_3d {debug : Bool} {x toReal : Nat → K} {frac : K → Option Nat} {nodes : List (Node K)} {elems : List Elem}
    {head mid tail : List (Line K)} (hhead : ∀ l ∈ head, l.isMarker .nodes = false) (hmid : ∀ l ∈ mid, l.isMarker .elements = false)
    (hS : Sheet 3 nodes elems) {g : Segments.Grid} {cells : List (Cell 3)}
    (h : MshGrid debug orient3 scheme3 x (file toReal frac nodes elems head mid tail) g cells) (vs : List Nat) :
    (IsInterfaceSegment g vs ↔ ∃ e ∈ ofDim 2 elems, e.verts.Perm vs ∧ carriers 3 elems vs ≠ 1) ∧
      (IsBoundarySegment g vs ↔ ∃ e ∈ ofDim 2 elems, e.verts.Perm vs ∧ carriers 3 elems vs = 1) ∧
      ∀ e ∈ ofDim 2 elems, e.verts.Perm vs → carriers 3 elems vs ≠ 1 → Map.find g.interfaceSegments (sortIds vs) = some e.marker :=
  segments (by decide) (fun _ => ⟨1, rfl⟩) scheme3_valid hhead hmid hS h vs

omit [IsStrictOrderedRing K] in
/-- **C176**: no grid is read from a file in which a facet is named twice, in whatever order its nodes are given. -/
theorem C176_duplicate {d : Nat} (hd : 1 ≤ d) {debug : Bool} {orient : (Fin (d + 1) → Nat) → Fin (d + 1) → Nat} {S : Scheme d} {x toReal : Nat → K}
    {frac : K → Option Nat} {nodes : List (Node K)} {elems : List Elem} {head mid tail : List (Line K)}
    (hhead : ∀ l ∈ head, l.isMarker .nodes = false) (hmid : ∀ l ∈ mid, l.isMarker .elements = false)
    (hpos : ∀ n ∈ nodes, n.pos.length = d) (hval : ∀ e ∈ elems, e.Valid ∧ e.nodes ≠ []) {i j : Nat} (hij : i < j) {e e' : Elem}
    (hi : elems[i]? = some e) (hj : elems[j]? = some e') (ht : typeDim e.type = some (d - 1)) (ht' : typeDim e'.type = some (d - 1))
    (hp : e.nodes.Perm e'.nodes) (g : Segments.Grid) (cells : List (Cell d)) :
    ¬ MshGrid debug orient S x (file toReal frac nodes elems head mid tail) g cells := by
  rintro ⟨calls, s, order, h1, h2, -⟩
  rw [C18_file debug d toReal frac nodes elems head mid tail hhead hmid hpos hval] at h1
  cases h1
  obtain ⟨hj1, hj2⟩ := List.getElem?_eq_some_iff.1 hj
  have hsplit : elems = elems.take j ++ e' :: elems.drop (j + 1) := by
    rw [← hj2, ← List.drop_eq_getElem_cons hj1, List.take_append_drop]
  rw [hsplit] at h2
  refine duplicate hd nodes _ _ e e' ?_ ht ht' hp s h2
  rw [List.mem_iff_getElem?]
  exact ⟨i, by rw [List.getElem?_take_of_lt hij, hi]⟩

end

/-! ## Example -/

/-- The nodes of a square. -/
def sqNodes : List (Node ℚ) := [⟨1, [0, 0]⟩, ⟨2, [1, 0]⟩, ⟨3, [0, 1]⟩, ⟨4, [1, 1]⟩]

/-- Two triangles with the tags 5 and 6, their common edge with tag 9 (an interface), the lower side with tag 3 (boundary), and a point. -/
def sqElems : List Elem :=
  [⟨1, 1, [0, 9], [2, 3]⟩, ⟨2, 1, [0, 3], [1, 2]⟩, ⟨3, 2, [0, 5], [1, 2, 3]⟩, ⟨4, 2, [0, 6], [4, 3, 2]⟩, ⟨5, 15, [1], [3]⟩]

/-- The file describes a mesh. -/
theorem sq_sheet : Sheet 2 sqNodes sqElems := by
  refine ⟨by decide, by decide, ?_, by decide, by decide, by decide, ?_⟩
  · intro e he
    simp only [sqElems, List.mem_cons, List.not_mem_nil, or_false] at he
    rcases he with rfl | rfl | rfl | rfl | rfl
    · exact ⟨1, rfl, rfl⟩
    · exact ⟨1, rfl, rfl⟩
    · exact ⟨2, rfl, rfl⟩
    · exact ⟨2, rfl, rfl⟩
    · exact ⟨0, rfl, rfl⟩
  · have : bulk 2 sqElems = exMesh := by
      unfold bulk ofDim sqElems exMesh
      decide
    rw [this]
    exact exMesh_mesh

/-- In the square the common edge belongs to two triangles and the side to one. -/
example : carriers 2 sqElems [1, 2] = 2 ∧ carriers 2 sqElems [0, 1] = 1 := by decide

/-- The nodes of two tetrahedra. -/
def tetNodes : List (Node ℚ) := [⟨1, [0, 0, 0]⟩, ⟨2, [1, 0, 0]⟩, ⟨3, [0, 1, 0]⟩, ⟨4, [0, 0, 1]⟩, ⟨5, [1, 1, 1]⟩]

/-- Two tetrahedra, their common facet (an interface) and a facet on the boundary. -/
def tetElems : List Elem := [⟨1, 2, [0, 9], [4, 3, 2]⟩, ⟨2, 2, [0, 3], [1, 2, 3]⟩, ⟨3, 4, [0, 5], [1, 2, 3, 4]⟩, ⟨4, 4, [0, 6], [5, 2, 4, 3]⟩]

/-- The file describes a mesh. -/
theorem tet_sheet : Sheet 3 tetNodes tetElems := by
  refine ⟨by decide, by decide, ?_, by decide, by decide, by decide, ?_⟩
  · intro e he
    simp only [tetElems, List.mem_cons, List.not_mem_nil, or_false] at he
    rcases he with rfl | rfl | rfl | rfl
    · exact ⟨2, rfl, rfl⟩
    · exact ⟨2, rfl, rfl⟩
    · exact ⟨3, rfl, rfl⟩
    · exact ⟨3, rfl, rfl⟩
  · have : bulk 3 tetElems = exMesh3 := by
      unfold bulk ofDim tetElems exMesh3
      decide
    rw [this]
    exact exMesh3_mesh

/-- The common facet belongs to two tetrahedra. -/
example : carriers 3 tetElems [1, 2, 3] = 2 ∧ carriers 3 tetElems [0, 1, 2] = 1 := by decide

/-- A facet named twice: the hypotheses of `C176_duplicate` hold with the common edge of the square given again, reversed. -/
example : (sqElems ++ [⟨6, 1, [0, 7], [3, 2]⟩])[0]? = some ⟨1, 1, [0, 9], [2, 3]⟩ ∧ [2, 3].Perm [3, 2] ∧ typeDim 1 = some 1 :=
  ⟨rfl, by decide, rfl⟩

/-! ## C177: tags of boundary lines -/

/-- The calls of the reader on the factory with its map of boundary ids: none of them is `addBoundaryId` (gmshgridfactory.hh:88-180). -/
def feedIds {K : Type} (f : BoundaryIds.Factory) : List (Call K) → Res BoundaryIds.Factory
  | [] => .ok f
  | c :: l => (feed f.segs [c]).bind fun s => feedIds { f with segs := s } l

theorem feedIds_eq {K : Type} (calls : List (Call K)) (f : BoundaryIds.Factory) :
    feedIds f calls = (feed f.segs calls).bind fun s => .ok { f with segs := s } := by
  induction calls generalizing f with
  | nil => rfl
  | cons c l ih =>
    rw [show c :: l = [c] ++ l from rfl, feed_append]
    simp only [List.singleton_append, feedIds]
    cases feed f.segs [c] with
    | ok s => exact ih _
    | abort => rfl
    | throws => rfl
    | undefined => rfl

/-- **C177** (not guaranteed): whatever the calls of the reader, every intersection of the grid has the boundary id 0. -/
theorem C177_tags_false {K : Type} {calls : List (Call K)} {f : BoundaryIds.Factory} (h : feedIds {} calls = .ok f) (bf : List Key) (vs : List Nat) :
    BoundaryIds.boundaryId (BoundaryIds.serialGrid f bf) vs = 0 := by
  rw [feedIds_eq] at h
  cases hs : feed ({} : BoundaryIds.Factory).segs calls with
  | ok s =>
    rw [hs] at h
    cases h
    simp [BoundaryIds.boundaryId, BoundaryIds.serialGrid, Map.find]
  | abort => rw [hs] at h; cases h
  | throws => rw [hs] at h; cases h
  | undefined => rw [hs] at h; cases h

/-- **C177** for the square: the lower side has tag 3 in the file and is a boundary segment of the grid, its boundary id is 0. -/
theorem C177_square_false : ∃ f, feedIds {} (expected 2 sqNodes sqElems) = .ok f ∧
    IsBoundarySegment (createGrid f.segs [[0, 1], [0, 2], [1, 3], [2, 3]]) [0, 1] ∧
    BoundaryIds.boundaryId (BoundaryIds.serialGrid f [[0, 1], [0, 2], [1, 3], [2, 3]]) [0, 1] = 0 := by
  refine ⟨_, rfl, ?_, by decide +kernel⟩
  unfold IsBoundarySegment
  decide +kernel

/-! ## C178: elements that are not simplices -/

/-- A file with a square as one quadrilateral (type 3). -/
def quadElems : List Elem := [⟨1, 3, [0, 5], [1, 2, 4, 3]⟩]

/-- **C178** (not guaranteed): in a release build a quadrilateral is accepted and becomes the triangle of its first three corners; the fourth node belongs
to no element of the grid. -/
theorem C178_quadrilateral_false (x y toReal : Nat → ℚ) (frac : ℚ → Option Nat) : ∃ g cells,
    MshGrid false (orient2 x y) scheme2 x (file toReal frac sqNodes quadElems [] [] []) g cells ∧ cells.length = 1 ∧
      ∀ c ∈ cells, Finset.univ.image c.vertex = {0, 1, 3} := by
  have hgen := C18_file false 2 toReal frac sqNodes quadElems [] [] [] (by simp) (by simp) (by decide)
    (by
      intro e he
      simp only [quadElems, List.mem_singleton] at he
      subst he
      exact ⟨⟨⟨2, rfl⟩, by decide⟩, by decide⟩)
  refine ⟨_, createCells (orient2 x y) [(fun i : Fin 3 => [0, 1, 3, 2].getD i 0, 0, 5)], ⟨_, _, _, hgen, rfl, ⟨_, ?_, ?_, rfl⟩, List.Perm.refl _, rfl⟩, rfl, ?_⟩
  · exact List.Perm.refl _
  · simp
  · intro c hc
    simp only [createCells, List.map_cons, List.map_nil, List.mem_singleton] at hc
    subst hc
    obtain ⟨σ, hσ⟩ := orient2_perm x y (fun i : Fin 3 => [0, 1, 3, 2].getD i 0)
    simp only [hσ]
    rw [← Finset.image_image, Finset.image_univ_of_surjective σ.surjective]
    decide

/-! ## C179: streams -/

/-- The calls through the pointer `factory_` (gmshgridfactory.hh:115, 157-166): `none` is a pointer that was not initialised; it is returned if there
are no calls. -/
def through {K : Type} (factory : Option Segments.State) (calls : List (Call K)) : Res (Option Segments.State) :=
  match factory, calls with
  | some s, calls => (feed s calls).bind fun s' => .ok (some s')
  | none, [] => .ok none
  | none, _ :: _ => .undefined

/-- gmshgridfactory.hh:49-60: the constructor with the name of a file (a file that exists) makes a factory, and `generate` uses it. Simplified: the calls are made
after the file was read, which makes no difference if it can be read. -/
def fromFile {K : Type} (debug : Bool) (dim : Nat) (text : List (Line K)) : Res (Option Segments.State) :=
  (generate debug dim text).bind fun calls => through (some {}) calls

/-- gmshgridfactory.hh:42-47: the constructor with a stream (that can be reset) calls `generate` without a factory; `factory_` (gmshgridfactory.hh:219) has no
initialiser. Simplified as above. -/
def fromStream {K : Type} (debug : Bool) (dim : Nat) (text : List (Line K)) : Res (Option Segments.State) :=
  (generate debug dim text).bind fun calls => through none calls

/-- **C179** (not guaranteed): a file that describes a mesh can be read by its name, but its behaviour is undefined if it is passed as a stream. -/
theorem C179_stream_false {K : Type} [Field K] {d : Nat} (hd : 1 ≤ d) (debug : Bool) (toReal : Nat → K) (frac : K → Option Nat) {nodes : List (Node K)}
    {elems : List Elem} {head mid tail : List (Line K)} (hhead : ∀ l ∈ head, l.isMarker .nodes = false)
    (hmid : ∀ l ∈ mid, l.isMarker .elements = false) (hS : Sheet d nodes elems) (hn : nodes ≠ []) :
    (∃ s, fromFile debug d (file toReal frac nodes elems head mid tail) = .ok (some s)) ∧
      fromStream debug d (file toReal frac nodes elems head mid tail) = .undefined := by
  have hgen := C18_file debug d toReal frac nodes elems head mid tail hhead hmid hS.pos (valid hS)
  unfold fromFile fromStream
  rw [hgen]
  constructor
  · obtain ⟨s, hs⟩ := feed_elems (K := K) hd elems [] { ({} : Segments.State) with numVertices := 0 + nodes.length }
      (Fed.mk (d := d) (n := nodes.length) (by simp) (by simp)) (by simpa using hS.simplex) (by simpa using hS.range) (by simpa using hS.distinct)
    refine ⟨s, ?_⟩
    have h1 : feed {} (expected d nodes elems) = .ok s := by
      unfold expected
      rw [feed_append, feed_nodes]
      exact hs
    show (feed {} (expected d nodes elems)).bind (fun s' => .ok (some s')) = .ok (some s)
    rw [h1]
    rfl
  · show through none (expected d nodes elems) = .undefined
    cases nodes with
    | nil => exact absurd rfl hn
    | cons n l => rfl

/-- The hypotheses hold for the square. -/
example (toReal : Nat → ℚ) (frac : ℚ → Option Nat) :
    fromStream false 2 (file toReal frac sqNodes sqElems [] [] []) = .undefined :=
  (C179_stream_false (by decide) false toReal frac (by simp) (by simp) sq_sheet (by decide)).2

end Verif.Gmsh
