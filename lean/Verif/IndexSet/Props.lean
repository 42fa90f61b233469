import Verif.IndexSet.Model

/-!
# C05, C06: leaf indices of the bulk grid

Specification: `IsNumbering idx S n`: the numbers given to the members of `S` are exactly `0, ..., n-1`, each
given once.
-/

namespace Verif.IndexSet

open Verif.RefElem

/-- The table `idx` numbers the things in `S` by `0, ..., n-1` without gaps and without repetition. -/
def IsNumbering {K : Type} (idx : K → Option ℕ) (S : Set K) (n : ℕ) : Prop :=
  (∀ k ∈ S, ∃ i, i < n ∧ idx k = some i) ∧ (∀ i < n, ∃ k ∈ S, idx k = some i) ∧
  (∀ k ∈ S, ∀ k' ∈ S, idx k = idx k' → k = k')

theorem number_aux {K : Type} [DecidableEq K] (keys : List K) (t : K → Option ℕ) (c : ℕ) (hnd : keys.Nodup) :
    let r := keys.foldl (fun st k => (Function.update st.1 k (some st.2), st.2 + 1)) (t, c)
    r.2 = c + keys.length ∧ (∀ i (h : i < keys.length), r.1 keys[i] = some (c + i)) ∧
    (∀ k, k ∉ keys → r.1 k = t k) := by
  induction keys generalizing t c with
  | nil => simp
  | cons a l ih =>
    obtain ⟨hal, hl⟩ := List.nodup_cons.1 hnd
    obtain ⟨h1, h2, h3⟩ := ih (Function.update t a (some c)) (c + 1) hl
    refine ⟨?_, ?_, ?_⟩
    · simp only [List.foldl_cons, List.length_cons] at *; omega
    · intro i hi
      cases i with
      | zero => simp only [List.foldl_cons, List.getElem_cons_zero]; rw [h3 a hal]; simp
      | succ i =>
        simp only [List.foldl_cons, List.getElem_cons_succ]
        rw [h2 i (by simpa using hi)]
        congr 1; omega
    · intro k hk
      simp only [List.mem_cons, not_or] at hk
      simp only [List.foldl_cons]
      rw [h3 k hk.2, Function.update_of_ne hk.1]

theorem number_spec {K : Type} [DecidableEq K] (old : K → Option ℕ) (keys : List K) (hnd : keys.Nodup) :
    (number old keys).2 = keys.length ∧ IsNumbering (number old keys).1 {k | k ∈ keys} keys.length := by
  obtain ⟨h1, h2, -⟩ := number_aux keys old 0 hnd
  refine ⟨by simpa [number] using h1, ?_, ?_, ?_⟩
  · intro k hk
    obtain ⟨i, hi, rfl⟩ := List.getElem_of_mem (show k ∈ keys from hk)
    exact ⟨i, hi, by simpa [number] using h2 i hi⟩
  · intro i hi
    exact ⟨keys[i], List.getElem_mem hi, by simpa [number] using h2 i hi⟩
  · intro k hk k' hk' he
    obtain ⟨i, hi, rfl⟩ := List.getElem_of_mem (show k ∈ keys from hk)
    obtain ⟨j, hj, rfl⟩ := List.getElem_of_mem (show k' ∈ keys from hk')
    have e1 := h2 i hi
    have e2 := h2 j hj
    simp only [number] at he
    rw [e1, e2] at he
    simp only [Nat.zero_add, Option.some.injEq] at he
    subst he; rfl

/-- The vertices of a facet object. -/
def fv {d : ℕ} (f : Cell d × Fin (d + 1)) : Set ℕ := facetVertices f.1.ids f.2

/-- A mesh whose data are up to date and whose iterations visit every entity exactly once: cells are well
formed (distinct vertex ids, `cgalIndex` current), no two elements have the same vertices, every vertex is
visited once, every facet of every element is visited through exactly one representation. -/
structure Valid {d : ℕ} (m : Mesh d) : Prop where
  wf : ∀ e ∈ m.cells, WellFormed e
  cellsOnce : m.cells.Pairwise (fun e e' => Set.range e.ids ≠ Set.range e'.ids)
  vertsOnce : m.verts.Nodup
  vertsAll : ∀ e ∈ m.cells, ∀ s, e.ids s ∈ m.verts
  facetCell : ∀ f ∈ m.facets, f.1 ∈ m.cells
  facetsOnce : m.facets.Pairwise (fun f f' => fv f ≠ fv f')
  facetsAll : ∀ e ∈ m.cells, ∀ s, ∃ f ∈ m.facets, fv f = fv (e, s)

theorem facetId_wf {d : ℕ} (hd : d = 2 ∨ d = 3) {e : Cell d} (he : WellFormed e) (s : Fin (d + 1)) :
    ∃ l, facetId e s = some l ∧ IsIdOf l (facetVertices e.ids s) := by
  obtain ⟨ids, h, rfl⟩ := he.cases
  exact C04_facet_id hd h (computeCGALIndices ids) s

theorem isIdOf_inj {l l' : List ℕ} {S : Set ℕ} (h : IsIdOf l S) (h' : IsIdOf l' S) : l = l' :=
  sorted_ext h.1 h'.1 (fun x => by rw [h.2, h'.2])

theorem isIdOf_set {l : List ℕ} {S S' : Set ℕ} (h : IsIdOf l S) (h' : IsIdOf l S') : S = S' :=
  Set.ext (fun x => by rw [← h.2, ← h'.2])

theorem mapM_option {α β : Type} (f : α → Option β) :
    ∀ l : List α, (∀ a ∈ l, ∃ b, f a = some b) → ∃ r, l.mapM f = some r ∧ List.Forall₂ (fun a b => f a = some b) l r
  | [], _ => ⟨[], rfl, .nil⟩
  | a :: t, h => by
    obtain ⟨b, hb⟩ := h a (List.mem_cons_self ..)
    obtain ⟨r, hr, hf⟩ := mapM_option f t (fun x hx => h x (List.mem_cons_of_mem _ hx))
    exact ⟨b :: r, by simp [hb, hr], .cons hb hf⟩

theorem forall₂_mem_left {α β : Type} {R : α → β → Prop} {l : List α} {r : List β} (h : List.Forall₂ R l r)
    {a : α} (ha : a ∈ l) : ∃ b ∈ r, R a b := by
  induction h with
  | nil => cases ha
  | cons hab _ ih =>
    rcases List.mem_cons.1 ha with rfl | ha
    · exact ⟨_, List.mem_cons_self .., hab⟩
    · obtain ⟨b, hb, h⟩ := ih ha; exact ⟨b, List.mem_cons_of_mem _ hb, h⟩

theorem forall₂_mem_right {α β : Type} {R : α → β → Prop} {l : List α} {r : List β} (h : List.Forall₂ R l r)
    {b : β} (hb : b ∈ r) : ∃ a ∈ l, R a b := by
  induction h with
  | nil => cases hb
  | cons hab _ ih =>
    rcases List.mem_cons.1 hb with rfl | hb
    · exact ⟨_, List.mem_cons_self .., hab⟩
    · obtain ⟨a, ha, h⟩ := ih hb; exact ⟨a, List.mem_cons_of_mem _ ha, h⟩

theorem forall₂_nodup {α β : Type} {f : α → Option β} {P : α → α → Prop} :
    ∀ {l : List α} {r : List β}, List.Forall₂ (fun a b => f a = some b) l r → l.Pairwise P →
      (∀ a ∈ l, ∀ a' ∈ l, P a a' → f a ≠ f a') → r.Nodup
  | [], _, .nil, _, _ => List.nodup_nil
  | a :: l, b :: r, .cons hab h, hp, hPf => by
    obtain ⟨h1, h2⟩ := List.pairwise_cons.1 hp
    refine List.nodup_cons.2 ⟨fun hm => ?_, forall₂_nodup h h2
      (fun x hx y hy => hPf x (List.mem_cons_of_mem _ hx) y (List.mem_cons_of_mem _ hy))⟩
    obtain ⟨a', ha', he⟩ := forall₂_mem_right h hm
    exact hPf a (List.mem_cons_self ..) a' (List.mem_cons_of_mem _ ha') (h1 a' ha') (by rw [hab, he])

/-- What the update computes, for use below. -/
theorem update_spec {d : ℕ} (hd : d = 2 ∨ d = 3) (old : Indices) {m : Mesh d} (hm : Valid m) :
    ∃ s fids, update old m = some s ∧
      List.Forall₂ (fun f l => facetId f.1 f.2 = some l) m.facets fids ∧ fids.Nodup ∧
      s.facet = (number (fun _ => none) fids).1 ∧ s.sizeFacet = fids.length ∧
      s.vert = (number old.vert m.verts).1 ∧ s.sizeVert = m.verts.length ∧
      s.elem = (number old.elem (m.cells.map elementId)).1 ∧ s.sizeElem = m.cells.length ∧
      (m.cells.map elementId).Nodup := by
  have hex : ∀ f ∈ m.facets, ∃ l, facetId f.1 f.2 = some l := fun f hf => by
    obtain ⟨l, hl, -⟩ := facetId_wf hd (hm.wf _ (hm.facetCell f hf)) f.2
    exact ⟨l, hl⟩
  obtain ⟨fids, hr, hf2⟩ := mapM_option (fun f : Cell d × Fin (d + 1) => facetId f.1 f.2) m.facets hex
  have hnd : fids.Nodup := by
    refine forall₂_nodup hf2 hm.facetsOnce (fun f hf f' hf' hne he => hne ?_)
    obtain ⟨l, hl, h1⟩ := facetId_wf hd (hm.wf _ (hm.facetCell f hf)) f.2
    obtain ⟨l', hl', h1'⟩ := facetId_wf hd (hm.wf _ (hm.facetCell f' hf')) f'.2
    rw [hl, hl', Option.some_inj] at he
    subst he
    exact isIdOf_set h1 h1'
  have hcn : (m.cells.map elementId).Nodup := by
    rw [List.Nodup, List.pairwise_map]
    refine List.Pairwise.imp_of_mem ?_ hm.cellsOnce
    intro e e' he he' hne h
    have a := C04_element_id e (hm.wf e he).1
    have b := C04_element_id e' (hm.wf e' he').1
    exact hne (isIdOf_set a (h ▸ b))
  refine ⟨⟨(number old.elem (m.cells.map elementId)).1, (number old.vert m.verts).1,
    (number (fun _ => none) fids).1, (number old.elem (m.cells.map elementId)).2, (number old.vert m.verts).2,
    (number (fun _ => none) fids).2⟩, fids, ?_, hf2, hnd, rfl, (number_spec _ fids hnd).1, rfl,
    (number_spec _ _ hm.vertsOnce).1, rfl, ?_, hcn⟩
  · simp only [update]
    rw [hr]
    rfl
  · have := (number_spec old.elem _ hcn).1
    simpa using this

/-- **C05** After an update (from any previous contents of the index set) the indices of the elements are
`0..size(0)-1`, and `size(0)` is the number of elements. -/
theorem C05_elements {d : ℕ} (hd : d = 2 ∨ d = 3) (old : Indices) {m : Mesh d} (hm : Valid m) {s : Indices}
    (hs : update old m = some s) :
    s.sizeElem = m.cells.length ∧ (∀ e ∈ m.cells, ∃ i < s.sizeElem, indexElem s e = some i) ∧
    (∀ i < s.sizeElem, ∃ e ∈ m.cells, indexElem s e = some i) ∧
    (∀ e ∈ m.cells, ∀ e' ∈ m.cells, indexElem s e = indexElem s e' → Set.range e.ids = Set.range e'.ids) := by
  obtain ⟨s', fids, h, -, -, -, -, -, -, he, hse, hnd⟩ := update_spec hd old hm
  rw [hs, Option.some_inj] at h; subst h
  obtain ⟨-, h1, h2, h3⟩ := number_spec old.elem _ hnd
  rw [← he] at h1 h2 h3
  simp only [List.length_map] at h1 h2
  refine ⟨hse, ?_, ?_, ?_⟩
  · intro e hem
    rw [hse]; exact h1 (elementId e) (List.mem_map_of_mem hem)
  · intro i hi
    obtain ⟨k, hk, hk'⟩ := h2 i (hse ▸ hi)
    obtain ⟨e, hem, rfl⟩ := List.mem_map.1 (show k ∈ m.cells.map elementId from hk)
    exact ⟨e, hem, hk'⟩
  · intro e hem e' hem' heq
    have := h3 _ (List.mem_map_of_mem hem) _ (List.mem_map_of_mem hem') heq
    exact isIdOf_set (this ▸ C04_element_id e (hm.wf e hem).1) (C04_element_id e' (hm.wf e' hem').1)

/-- **C05** The indices of the vertices are `0..size(dim)-1`. -/
theorem C05_vertices {d : ℕ} (hd : d = 2 ∨ d = 3) (old : Indices) {m : Mesh d} (hm : Valid m) {s : Indices}
    (hs : update old m = some s) :
    s.sizeVert = m.verts.length ∧ IsNumbering (indexVert s) {v | v ∈ m.verts} s.sizeVert := by
  obtain ⟨s', fids, h, -, -, -, -, hv, hsv, -, -, -⟩ := update_spec hd old hm
  rw [hs, Option.some_inj] at h; subst h
  refine ⟨hsv, ?_⟩
  have := (number_spec old.vert _ hm.vertsOnce).2
  rw [← hv, ← hsv] at this
  exact this

/-- **C05** The update never fails, every facet of every element has an index below `size(1)`, every number
below `size(1)` is the index of a facet, and two facet objects (seen from any elements) have the same index
exactly if they have the same vertices. -/
theorem C05_facets {d : ℕ} (hd : d = 2 ∨ d = 3) (old : Indices) {m : Mesh d} (hm : Valid m) :
    ∃ s, update old m = some s ∧ s.sizeFacet = m.facets.length ∧
    (∀ e ∈ m.cells, ∀ t, ∃ i < s.sizeFacet, indexFacet s e t = some i) ∧
    (∀ i < s.sizeFacet, ∃ e ∈ m.cells, ∃ t, indexFacet s e t = some i) ∧
    (∀ e ∈ m.cells, ∀ t, ∀ e' ∈ m.cells, ∀ t', indexFacet s e t = indexFacet s e' t' ↔
      facetVertices e.ids t = facetVertices e'.ids t') := by
  obtain ⟨s, fids, h, hf2, hnd, hf, hsf, -⟩ := update_spec hd old hm
  obtain ⟨-, h1, h2, h3⟩ := number_spec (fun _ => none) _ hnd
  rw [← hf, ← hsf] at h1 h2
  rw [← hf] at h3
  -- the id of any facet of any element occurs among the visited ids
  have key : ∀ e ∈ m.cells, ∀ t, ∃ l ∈ fids, facetId e t = some l := by
    intro e he t
    obtain ⟨f, hfm, hfv⟩ := hm.facetsAll e he t
    obtain ⟨l, hl, hfl⟩ := forall₂_mem_left hf2 hfm
    obtain ⟨l1, hl1, hid1⟩ := facetId_wf hd (hm.wf _ (hm.facetCell f hfm)) f.2
    obtain ⟨l2, hl2, hid2⟩ := facetId_wf hd (hm.wf e he) t
    rw [hfl, Option.some_inj] at hl1
    subst hl1
    have hfv' : facetVertices f.1.ids f.2 = facetVertices e.ids t := hfv
    rw [hfv'] at hid1
    exact ⟨l, hl, by rw [hl2, isIdOf_inj hid2 hid1]⟩
  refine ⟨s, h, by rw [hsf, hf2.length_eq], ?_, ?_, ?_⟩
  · intro e he t
    obtain ⟨l, hl, hid⟩ := key e he t
    obtain ⟨i, hi, hi'⟩ := h1 l hl
    exact ⟨i, hi, by simp [indexFacet, hid, hi']⟩
  · intro i hi
    obtain ⟨l, hl, hi'⟩ := h2 i hi
    obtain ⟨f, hfm, hfl⟩ := forall₂_mem_right hf2 hl
    exact ⟨f.1, hm.facetCell f hfm, f.2, by simp [indexFacet, hfl, hi']⟩
  · intro e he t e' he' t'
    obtain ⟨l, hl, hid⟩ := key e he t
    obtain ⟨l', hl', hid'⟩ := key e' he' t'
    obtain ⟨l1, e1, i1⟩ := facetId_wf hd (hm.wf e he) t
    obtain ⟨l2, e2, i2⟩ := facetId_wf hd (hm.wf e' he') t'
    rw [hid, Option.some_inj] at e1; subst e1
    rw [hid', Option.some_inj] at e2; subst e2
    simp only [indexFacet, hid, hid', Option.bind_some]
    constructor
    · intro heq
      have := h3 l hl l' hl' heq
      subst this
      exact isIdOf_set i1 i2
    · intro heq
      rw [heq] at i1
      rw [isIdOf_inj i1 i2]

/-- **C05** 3D edges: the same for codimension 2. -/
theorem C05_edges (m : Mesh 3) (hm : Valid m) (edges : List (Cell 3 × Fin 4 × Fin 4))
    (hc : ∀ f ∈ edges, f.1 ∈ m.cells ∧ f.2.1 ≠ f.2.2)
    (honce : edges.Pairwise (fun f f' =>
      ({f.1.ids f.2.1, f.1.ids f.2.2} : Set ℕ) ≠ {f'.1.ids f'.2.1, f'.1.ids f'.2.2}))
    (hall : ∀ e ∈ m.cells, ∀ i j, i ≠ j → ∃ f ∈ edges,
      ({f.1.ids f.2.1, f.1.ids f.2.2} : Set ℕ) = {e.ids i, e.ids j}) :
    ∃ r, updateEdges edges = some r ∧ r.2 = edges.length ∧
    (∀ e ∈ m.cells, ∀ i j, i ≠ j → ∃ n < r.2, indexEdge r.1 e i j = some n) ∧
    (∀ n < r.2, ∃ e ∈ m.cells, ∃ i j, i ≠ j ∧ indexEdge r.1 e i j = some n) ∧
    (∀ e ∈ m.cells, ∀ i j, i ≠ j → ∀ e' ∈ m.cells, ∀ i' j', i' ≠ j' →
      (indexEdge r.1 e i j = indexEdge r.1 e' i' j' ↔
        ({e.ids i, e.ids j} : Set ℕ) = {e'.ids i', e'.ids j'})) := by
  have eid : ∀ e ∈ m.cells, ∀ i j, i ≠ j → ∃ l, edgeId e i j = some l ∧ IsIdOf l {e.ids i, e.ids j} := by
    intro e he i j hij
    obtain ⟨ids, h, rfl⟩ := (hm.wf e he).cases
    exact C04_edge_id h (computeCGALIndices ids) i j hij
  obtain ⟨ids, hr, hf2⟩ := mapM_option (fun f : Cell 3 × Fin 4 × Fin 4 => edgeId f.1 f.2.1 f.2.2) edges
    (fun f hf => by obtain ⟨l, hl, -⟩ := eid f.1 (hc f hf).1 _ _ (hc f hf).2; exact ⟨l, hl⟩)
  have hnd : ids.Nodup := by
    refine forall₂_nodup hf2 honce (fun f hf f' hf' hne he => hne ?_)
    obtain ⟨l, hl, h1⟩ := eid f.1 (hc f hf).1 _ _ (hc f hf).2
    obtain ⟨l', hl', h1'⟩ := eid f'.1 (hc f' hf').1 _ _ (hc f' hf').2
    rw [hl, hl', Option.some_inj] at he
    subst he
    exact isIdOf_set h1 h1'
  obtain ⟨h0, h1, h2, h3⟩ := number_spec (fun _ => none) _ hnd
  rw [← h0] at h1 h2
  have key : ∀ e ∈ m.cells, ∀ i j, i ≠ j → ∃ l ∈ ids, edgeId e i j = some l := by
    intro e he i j hij
    obtain ⟨f, hfm, hfv⟩ := hall e he i j hij
    obtain ⟨l, hl, hfl⟩ := forall₂_mem_left hf2 hfm
    obtain ⟨l1, hl1, hid1⟩ := eid f.1 (hc f hfm).1 _ _ (hc f hfm).2
    obtain ⟨l2, hl2, hid2⟩ := eid e he i j hij
    rw [hfl, Option.some_inj] at hl1
    subst hl1
    rw [hfv] at hid1
    exact ⟨l, hl, by rw [hl2, isIdOf_inj hid2 hid1]⟩
  refine ⟨number (fun _ => none) ids, ?_, by rw [h0, hf2.length_eq], ?_, ?_, ?_⟩
  · simp only [updateEdges]; rw [hr]; rfl
  · intro e he i j hij
    obtain ⟨l, hl, hid⟩ := key e he i j hij
    obtain ⟨n, hn, hn'⟩ := h1 l hl
    exact ⟨n, hn, by simp [indexEdge, hid, hn']⟩
  · intro n hn
    obtain ⟨l, hl, hn'⟩ := h2 n hn
    obtain ⟨f, hfm, hfl⟩ := forall₂_mem_right hf2 hl
    exact ⟨f.1, (hc f hfm).1, f.2.1, f.2.2, (hc f hfm).2, by simp [indexEdge, hfl, hn']⟩
  · intro e he i j hij e' he' i' j' hij'
    obtain ⟨l, hl, hid⟩ := key e he i j hij
    obtain ⟨l', hl', hid'⟩ := key e' he' i' j' hij'
    obtain ⟨l1, e1, i1⟩ := eid e he i j hij
    obtain ⟨l2, e2, i2⟩ := eid e' he' i' j' hij'
    rw [hid, Option.some_inj] at e1; subst e1
    rw [hid', Option.some_inj] at e2; subst e2
    simp only [indexEdge, hid, hid', Option.bind_some]
    constructor
    · intro heq
      have := h3 l hl l' hl' heq
      subst this
      exact isIdOf_set i1 i2
    · intro heq
      rw [heq] at i1
      rw [isIdOf_inj i1 i2]

/-! ## C06 -/

/-- **C06** `subIndex(e, i, 1)` never throws and equals `index(f)` for every facet object `f` (from whichever
element it was obtained) whose vertices are the corners of reference facet `i` of `e`. -/
theorem C06_facets {d : ℕ} (hd : d = 2 ∨ d = 3) (old : Indices) {m : Mesh d} (hm : Valid m) {s : Indices}
    (hs : update old m = some s) {e : Cell d} (he : e ∈ m.cells) (i : Fin (d + 1)) :
    ∃ n, subIndexFacet s e i = some n ∧
      ∀ e' ∈ m.cells, ∀ t, facetVertices e'.ids t = {x | ∃ k, e.ids (elementVertexSlot e (refFacet i k)) = x} →
        indexFacet s e' t = some n := by
  obtain ⟨s', h, -, h1, -, h3⟩ := C05_facets hd old hm
  rw [hs, Option.some_inj] at h; subst h
  obtain ⟨ids, hinj, hce⟩ := (hm.wf e he).cases
  obtain ⟨t0, ht0, hv⟩ := C07_facet_same_vertices hd (computeCGALIndices ids) i
  have hslot : elementFacetSlot e i = some t0 := by
    rw [hce]; unfold elementFacetSlot
    simp only [ht0, Fin.is_lt, dif_pos, Fin.eta]
  obtain ⟨n, -, hn⟩ := h1 e he t0
  refine ⟨n, ?_, ?_⟩
  · unfold subIndexFacet; rw [hslot]; exact hn
  · intro e' he' t ht
    rw [← hn, h3 e' he' t e he t0, ht]
    ext x
    simp only [facetVertices, Set.mem_ofPred_eq, hce, elementVertexSlot, hv]
    constructor
    · rintro ⟨k, rfl⟩; exact ⟨_, ⟨k, rfl⟩, rfl⟩
    · rintro ⟨_, ⟨k, rfl⟩, rfl⟩; exact ⟨k, rfl⟩

/-- **C06** `subIndex(e, i, dim)` is the index of the `i`-th corner, i.e. of the vertex with the `i`-th smallest
id of the element. -/
theorem C06_vertices {d : ℕ} (hd : d = 2 ∨ d = 3) (old : Indices) {m : Mesh d} (hm : Valid m) {s : Indices}
    (hs : update old m = some s) {e : Cell d} (he : e ∈ m.cells) (i : Fin (d + 1)) :
    ∃ v n, (elementId e)[i.val]? = some v ∧ v ∈ m.verts ∧ indexVert s v = some n ∧
      subIndexVert s e i = some n := by
  obtain ⟨-, h1, -⟩ := C05_vertices hd old hm hs
  obtain ⟨n, -, hn⟩ := h1 _ (hm.vertsAll e he (elementVertexSlot e i))
  obtain ⟨ids, hinj, rfl⟩ := (hm.wf e he).cases
  exact ⟨_, n, by
    rw [elementId_sorted hinj, List.getElem?_map, List.getElem?_eq_getElem (by rw [List.length_finRange]; exact i.isLt)]
    simp [elementVertexSlot], hm.vertsAll _ he _, hn, hn⟩

/-- **C06** 3D: `subIndex(e, i, 2)` equals `index` of every edge object with the two corners of reference
edge `i` of `e`; stated for the edge table computed by the update. -/
theorem C06_edges (m : Mesh 3) (hm : Valid m) (edges : List (Cell 3 × Fin 4 × Fin 4))
    (hc : ∀ f ∈ edges, f.1 ∈ m.cells ∧ f.2.1 ≠ f.2.2)
    (honce : edges.Pairwise (fun f f' =>
      ({f.1.ids f.2.1, f.1.ids f.2.2} : Set ℕ) ≠ {f'.1.ids f'.2.1, f'.1.ids f'.2.2}))
    (hall : ∀ e ∈ m.cells, ∀ i j, i ≠ j → ∃ f ∈ edges,
      ({f.1.ids f.2.1, f.1.ids f.2.2} : Set ℕ) = {e.ids i, e.ids j})
    {r : (List ℕ → Option ℕ) × ℕ} (hr : updateEdges edges = some r) {e : Cell 3} (he : e ∈ m.cells) (i : Fin 6) :
    ∃ n, subIndexEdge r.1 e i = some n ∧
      ∀ e' ∈ m.cells, ∀ a b, a ≠ b → ({e'.ids a, e'.ids b} : Set ℕ)
        = {e.ids (elementVertexSlot e (refEdge3 i).1), e.ids (elementVertexSlot e (refEdge3 i).2)} →
        indexEdge r.1 e' a b = some n := by
  obtain ⟨r', h, -, h1, -, h3⟩ := C05_edges m hm edges hc honce hall
  rw [hr, Option.some_inj] at h; subst h
  obtain ⟨ids, hinj, hce⟩ := (hm.wf e he).cases
  have hne : (elementEdgeSlots e i).1 ≠ (elementEdgeSlots e i).2 := by
    rw [hce]; exact (C08_edge_roundtrip (computeCGALIndices ids) ids i).1
  obtain ⟨n, -, hn⟩ := h1 e he _ _ hne
  refine ⟨n, hn, fun e' he' a b hab hs => ?_⟩
  rw [← hn, h3 e' he' a b hab e he _ _ hne, hs]
  rfl

/-! ### Non-vacuity: two triangles sharing an edge -/

/-- The mesh of the triangles {4,7,9} and {1,4,9}. -/
def exMesh : Mesh 2 :=
  ⟨[exTri, exTri'], [9, 4, 7, 1], [(exTri, 2), (exTri, 1), (exTri, 0), (exTri', 0), (exTri', 1)]⟩

theorem exMesh_valid : Valid exMesh where
  wf := by
    intro e he
    simp only [exMesh, List.mem_cons, List.not_mem_nil, or_false] at he
    rcases he with rfl | rfl
    · exact exTri_wf
    · exact exTri'_wf
  cellsOnce := by
    simp only [exMesh, List.pairwise_cons, List.mem_cons, List.not_mem_nil, or_false, forall_eq,
      IsEmpty.forall_iff, implies_true, List.Pairwise.nil, and_true]
    intro h
    have : 1 ∈ Set.range exTri.ids := by rw [h]; exact ⟨2, rfl⟩
    obtain ⟨x, hx⟩ := this
    revert x; decide
  vertsOnce := by decide
  vertsAll := by
    intro e he s
    simp only [exMesh, List.mem_cons, List.not_mem_nil, or_false] at he
    rcases he with rfl | rfl
    · revert s; decide
    · revert s; decide
  facetCell := by
    intro f hf
    simp only [exMesh, List.mem_cons, List.not_mem_nil, or_false] at hf ⊢
    rcases hf with rfl | rfl | rfl | rfl | rfl <;> simp
  facetsOnce := by
    have dis : ∀ {f f' : Cell 2 × Fin 3} (x : ℕ), (∃ t, t ≠ f.2 ∧ f.1.ids t = x) →
        (¬ ∃ t, t ≠ f'.2 ∧ f'.1.ids t = x) → fv f ≠ fv f' := by
      intro f f' x h1 h2 h
      exact h2 ((Set.ext_iff.1 h x).1 h1)
    refine List.pairwise_cons.2 ⟨?_, List.pairwise_cons.2 ⟨?_, List.pairwise_cons.2 ⟨?_,
      List.pairwise_cons.2 ⟨?_, List.pairwise_cons.2 ⟨?_, List.Pairwise.nil⟩⟩⟩⟩⟩
    · intro f hf
      simp only [List.mem_cons, List.not_mem_nil, or_false] at hf
      rcases hf with rfl | rfl | rfl | rfl
      · exact dis 4 (by decide) (by decide)
      · exact dis 9 (by decide) (by decide)
      · exact dis 4 (by decide) (by decide)
      · exact dis 9 (by decide) (by decide)
    · intro f hf
      simp only [List.mem_cons, List.not_mem_nil, or_false] at hf
      rcases hf with rfl | rfl | rfl
      · exact dis 9 (by decide) (by decide)
      · exact dis 7 (by decide) (by decide)
      · exact dis 7 (by decide) (by decide)
    · intro f hf
      simp only [List.mem_cons, List.not_mem_nil, or_false] at hf
      rcases hf with rfl | rfl
      · exact dis 7 (by decide) (by decide)
      · exact dis 7 (by decide) (by decide)
    · intro f hf
      simp only [List.mem_cons, List.not_mem_nil, or_false] at hf
      subst hf
      exact dis 9 (by decide) (by decide)
    · simp
  facetsAll := by
    have eqv : ∀ {f f' : Cell 2 × Fin 3}, (∀ t, t ≠ f.2 → ∃ t', t' ≠ f'.2 ∧ f'.1.ids t' = f.1.ids t) →
        (∀ t, t ≠ f'.2 → ∃ t', t' ≠ f.2 ∧ f.1.ids t' = f'.1.ids t) → fv f = fv f' := by
      intro f f' h1 h2
      ext x
      constructor
      · rintro ⟨t, ht, rfl⟩; exact h1 t ht
      · rintro ⟨t, ht, rfl⟩; exact h2 t ht
    intro e he s
    simp only [exMesh, List.mem_cons, List.not_mem_nil, or_false] at he
    rcases he with rfl | rfl
    · match s with
      | 0 => exact ⟨(exTri, 0), by simp [exMesh], rfl⟩
      | 1 => exact ⟨(exTri, 1), by simp [exMesh], rfl⟩
      | 2 => exact ⟨(exTri, 2), by simp [exMesh], rfl⟩
    · match s with
      | 0 => exact ⟨(exTri', 0), by simp [exMesh], rfl⟩
      | 1 => exact ⟨(exTri', 1), by simp [exMesh], rfl⟩
      | 2 => exact ⟨(exTri, 2), by simp [exMesh], eqv (by decide) (by decide)⟩

end Verif.IndexSet
