import Verif.Incident.Model
import Verif.InterfaceIter.Props
import Verif.Factory.SegProps
import Verif.Curvature.Props

/-!
# C89, C90, C91: incident entities
-/

namespace Verif.Incident

open Verif Tri Factory RefElem Segments

variable {α : Type} {d : Nat}

/-! ## Specification -/

/-- What CGAL documents: the circulator runs through the cells that contain all vertices in `S` (a vertex, or the two vertices of an edge), each once; infinite cells
only if `inf` (circulators; the functions with `finite` in their name leave them out). -/
def RunsCells (T : Tri d) (inf : Bool) (S : Finset (Option Nat)) (circ : List Nat) : Prop :=
  circ.Nodup ∧ ∀ h, h ∈ circ ↔ ∃ c, T.cells[h]? = some c ∧ ((∃ i, c i = none) → inf = true) ∧ ∀ s ∈ S, ∃ i, c i = s

/-- `F` is the set of vertices of a facet of the triangulation. -/
def IsFacet (T : Tri d) (F : Finset (Option Nat)) : Prop := ∃ h i, h < T.cells.length ∧ T.facet h i = F

/-- CGAL: the circulator runs through the facets that contain all vertices in `S`, each once (from one of its two sides); infinite facets only if `inf`. -/
def RunsFacets (T : Tri d) (inf : Bool) (S : Finset (Option Nat)) (circ : List (Nat × Fin (d + 1))) : Prop :=
  (circ.map fun f => T.facet f.1 f.2).Nodup ∧ (∀ f ∈ circ, f.1 < T.cells.length) ∧
    ∀ F, F ∈ circ.map (fun f => T.facet f.1 f.2) ↔ S ⊆ F ∧ IsFacet T F ∧ (none ∈ F → inf = true)

/-- `v` and `w` are different vertices of a cell. -/
def Joined (T : Tri d) (v w : Option Nat) : Prop := v ≠ w ∧ ∃ c ∈ T.cells, (∃ i, c i = v) ∧ ∃ j, c j = w

/-- CGAL: the circulator runs through the vertices joined with `v` by an edge, each once. -/
def RunsVertices (T : Tri d) (v : Option Nat) (circ : List (Option Nat)) : Prop := circ.Nodup ∧ ∀ w, w ∈ circ ↔ Joined T v w

/-- The facet with vertices `F` is an interface segment. -/
def IsSegment (m : Mesh d) (F : Finset (Option Nat)) : Prop := ∃ k ∈ m.segs, F = (k.map some).toFinset

/-- The grid: CGAL's triangulation with different vertices in each cell; the segments are sorted lists of different ids, and their vertices are flagged. -/
structure Good (m : Mesh d) : Prop where
  inj : ∀ c ∈ m.tri.cells, Function.Injective c
  sorted : ∀ k ∈ m.segs, sortIds k = k ∧ k.Nodup
  flags : ∀ k ∈ m.segs, ∀ v ∈ k, m.flag v = true

/-! ## Proofs -/

theorem fill_eq (keep : α → Bool) (l acc : List α) : fill keep l acc = acc ++ l.filter keep := by
  induction l generalizing acc with
  | nil => simp [fill]
  | cons a l ih =>
    rw [fill, ih]
    by_cases h : keep a <;> simp [h]

theorem countUp_eq (keep : α → Bool) (l : List α) (i : Nat) : countUp keep l i = i + (l.filter keep).length := by
  induction l generalizing i with
  | nil => simp [countUp]
  | cons a l ih =>
    rw [countUp, ih]
    by_cases h : keep a <;> simp [h]; omega

theorem walk_eq (l : List α) : ∀ (fuel i : Nat), i ≤ l.length → l.length ≤ i + fuel → walk l l.length fuel i = some (l.drop i) := by
  intro fuel
  induction fuel with
  | zero =>
    intro i h1 h2
    have : i = l.length := by omega
    subst this
    simp [walk]
  | succ fuel ih =>
    intro i h1 h2
    rw [walk]
    by_cases he : i = l.length
    · subst he; simp
    · rw [if_neg he, List.getElem?_eq_getElem (by omega), ih (i + 1) (by omega) (by omega)]
      simp

/-- The visited entities are those that pass the test. -/
theorem visited_eq (keep : α → Bool) (circ circ' : List α) (h : (circ.filter keep).length = (circ'.filter keep).length) :
    visited keep circ circ' = some (circ.filter keep) := by
  unfold visited
  rw [fill_eq, countUp_eq, List.nil_append, Nat.zero_add, ← h]
  refine walk_eq _ _ 0 (by omega) ?_
  rw [h, Nat.zero_add]
  exact List.length_filter_le _ _

theorem filter_length_of_runs {keep : α → Bool} {circ circ' : List α} (h1 : circ.Nodup) (h2 : circ'.Nodup) (h : ∀ a, a ∈ circ ↔ a ∈ circ') :
    (circ.filter keep).length = (circ'.filter keep).length :=
  (((List.perm_ext_iff_of_nodup h1 h2).2 h).filter keep).length_eq

/-- The same for facets seen from either side, if the test does not depend on the side. -/
theorem filter_length_of_map {β : Type} [DecidableEq β] {keep : α → Bool} {F : α → β} {circ circ' : List α} (h1 : (circ.map F).Nodup) (h2 : (circ'.map F).Nodup)
    (h : ∀ b, b ∈ circ.map F ↔ b ∈ circ'.map F) (hk : ∀ a ∈ circ, ∀ b ∈ circ', F a = F b → keep a = keep b) : (circ.filter keep).length = (circ'.filter keep).length := by
  have e : ((circ.filter keep).map F).Perm ((circ'.filter keep).map F) := by
    refine (List.perm_ext_iff_of_nodup (h1.sublist ((List.filter_sublist).map F)) (h2.sublist ((List.filter_sublist).map F))).2 fun b => ?_
    simp only [List.mem_map, List.mem_filter]
    constructor
    · rintro ⟨a, ⟨ha, hka⟩, rfl⟩
      obtain ⟨b, hb, e⟩ := List.mem_map.1 ((h (F a)).1 (List.mem_map.2 ⟨a, ha, rfl⟩))
      exact ⟨b, ⟨hb, by rw [← hk a ha b hb e.symm]; exact hka⟩, e⟩
    · rintro ⟨a, ⟨ha, hka⟩, rfl⟩
      obtain ⟨b, hb, e⟩ := List.mem_map.1 ((h (F a)).2 (List.mem_map.2 ⟨a, ha, rfl⟩))
      exact ⟨b, ⟨hb, by rw [hk b hb a ha e]; exact hka⟩, e⟩
  simpa using e.length_eq

/-! ## C89 -/

/-- C89: `incidentElements` of a vertex in 2D or an edge in 3D visits exactly the elements of the grid that contain it, each once. -/
theorem C89_elements (m : Mesh d) (S : Finset (Option Nat)) (circ circ' : List Nat) (h : RunsCells m.tri true S circ) (h' : RunsCells m.tri true S circ') :
    ∃ l, incidentElements m circ circ' = some l ∧ l.Nodup ∧
      ∀ e, e ∈ l ↔ ∃ c, m.tri.cells[e]? = some c ∧ (∀ i, c i ≠ none) ∧ ∀ s ∈ S, ∃ i, c i = s := by
  refine ⟨_, visited_eq _ _ _ (filter_length_of_runs h.1 h'.1 fun a => (h.2 a).trans (h'.2 a).symm), h.1.filter _, fun e => ?_⟩
  rw [List.mem_filter, h.2]
  constructor
  · rintro ⟨⟨c, hc, -, hs⟩, hf⟩
    unfold cellInfinite at hf
    rw [hc] at hf
    exact ⟨c, hc, by simpa [finite] using hf, hs⟩
  · rintro ⟨c, hc, hf, hs⟩
    refine ⟨⟨c, hc, fun _ => rfl, hs⟩, ?_⟩
    unfold cellInfinite
    rw [hc]
    simpa [finite] using hf

/-- C89 for a vertex in 3D, where CGAL leaves out the infinite cells. -/
theorem C89_elements_3d (m : Mesh d) (S : Finset (Option Nat)) (circ circ' : List Nat) (h : RunsCells m.tri false S circ) (h' : RunsCells m.tri false S circ') :
    ∃ l, incidentElements3 circ circ' = some l ∧ l.Nodup ∧ ∀ e, e ∈ l ↔ ∃ c, m.tri.cells[e]? = some c ∧ (∀ i, c i ≠ none) ∧ ∀ s ∈ S, ∃ i, c i = s := by
  refine ⟨_, visited_eq _ _ _ (filter_length_of_runs h.1 h'.1 fun a => (h.2 a).trans (h'.2 a).symm), h.1.filter _, fun e => ?_⟩
  rw [List.filter_true, h.2]
  simp

/-- C89: `incidentFacets` of a vertex in 2D visits exactly the facets of the grid that contain it, each once. -/
theorem C89_facets (m : Mesh d) (S : Finset (Option Nat)) (circ circ' : List (Nat × Fin (d + 1))) (h : RunsFacets m.tri true S circ) (h' : RunsFacets m.tri true S circ') :
    ∃ l, incidentFacets m circ circ' = some l ∧ (l.map fun f => m.tri.facet f.1 f.2).Nodup ∧
      ∀ F, F ∈ l.map (fun f => m.tri.facet f.1 f.2) ↔ S ⊆ F ∧ IsFacet m.tri F ∧ none ∉ F := by
  have hk : ∀ a ∈ circ, ∀ b ∈ circ', m.tri.facet a.1 a.2 = m.tri.facet b.1 b.2 → (!facetInfinite m a) = !facetInfinite m b := by
    intro a _ b _ e
    unfold facetInfinite
    rw [e]
  refine ⟨_, visited_eq _ _ _ (filter_length_of_map h.1 h'.1 (fun F => (h.2.2 F).trans (h'.2.2 F).symm) hk), h.1.sublist ((List.filter_sublist).map _), fun F => ?_⟩
  simp only [List.mem_map, List.mem_filter]
  constructor
  · rintro ⟨f, ⟨hf, hi⟩, rfl⟩
    obtain ⟨h1, h2, -⟩ := (h.2.2 _).1 (List.mem_map.2 ⟨f, hf, rfl⟩)
    exact ⟨h1, h2, by simpa [facetInfinite] using hi⟩
  · rintro ⟨h1, h2, h3⟩
    obtain ⟨f, hf, e⟩ := List.mem_map.1 ((h.2.2 F).2 ⟨h1, h2, fun _ => rfl⟩)
    exact ⟨f, ⟨hf, by unfold facetInfinite; rw [e]; simpa using h3⟩, e⟩

/-- C89 for the facets of a vertex in 3D, where CGAL leaves out the infinite facets. -/
theorem C89_facets_3d (m : Mesh d) (S : Finset (Option Nat)) (circ circ' : List (Nat × Fin (d + 1))) (h : RunsFacets m.tri false S circ)
    (h' : RunsFacets m.tri false S circ') : ∃ l, incidentFacets3 circ circ' = some l ∧ (l.map fun f => m.tri.facet f.1 f.2).Nodup ∧
      ∀ F, F ∈ l.map (fun f => m.tri.facet f.1 f.2) ↔ S ⊆ F ∧ IsFacet m.tri F ∧ none ∉ F := by
  refine ⟨_, visited_eq _ _ _ (filter_length_of_map h.1 h'.1 (fun F => (h.2.2 F).trans (h'.2.2 F).symm) fun _ _ _ _ _ => rfl),
    h.1.sublist ((List.filter_sublist).map _), fun F => ?_⟩
  rw [List.filter_true, h.2.2]
  simp

/-- C89: `incidentVertices` of a vertex visits exactly the vertices joined with it, each once, the infinite vertex only if asked for. -/
theorem C89_vertices (T : Tri d) (v : Option Nat) (includeInfinite : Bool) (circ circ' : List (Option Nat)) (h : RunsVertices T v circ) (h' : RunsVertices T v circ') :
    ∃ l, incidentVertices includeInfinite circ circ' = some l ∧ l.Nodup ∧ ∀ w, w ∈ l ↔ Joined T v w ∧ (w = none → includeInfinite = true) := by
  refine ⟨_, visited_eq _ _ _ (filter_length_of_runs h.1 h'.1 fun a => (h.2 a).trans (h'.2 a).symm), h.1.filter _, fun w => ?_⟩
  rw [List.mem_filter, h.2]
  cases w <;> simp

/-! ## C90 -/

theorem facetVertices_eq {m : Mesh d} {f : Nat × Fin (d + 1)} (hf : f.1 < m.tri.cells.length) : (facetVertices m f).toFinset = m.tri.facet f.1 f.2 := by
  unfold facetVertices Tri.facet
  rw [List.getElem?_eq_getElem hf]
  ext x
  simp [facetOf]

theorem facetVertices_nodup {m : Mesh d} (G : Good m) {f : Nat × Fin (d + 1)} : (facetVertices m f).Nodup := by
  unfold facetVertices
  cases h : m.tri.cells[f.1]? with
  | none => exact List.nodup_nil
  | some c => exact ((List.nodup_finRange _).filter _).map (G.inj c (List.mem_of_getElem? h))

theorem map_some_filterMap {l : List (Option Nat)} (h : none ∉ l) : (l.filterMap id).map some = l := by
  induction l with
  | nil => rfl
  | cons a l ih =>
    cases a with
    | none => simp at h
    | some a =>
      have := ih (fun h' => h (by simp [h']))
      simpa using this

/-- For a facet without the infinite vertex the lookup finds exactly the segments. -/
theorem contains_iff {m : Mesh d} (G : Good m) {f : Nat × Fin (d + 1)} (hf : f.1 < m.tri.cells.length) (hn : none ∉ m.tri.facet f.1 f.2) :
    m.segs.contains (sortIds ((facetVertices m f).filterMap id)) = true ↔ IsSegment m (m.tri.facet f.1 f.2) := by
  have hn' : none ∉ facetVertices m f := by rw [← List.mem_toFinset, facetVertices_eq hf]; exact hn
  have hm := map_some_filterMap hn'
  have hnd : ((facetVertices m f).filterMap id).Nodup := by
    have := facetVertices_nodup G (f := f)
    rw [← hm] at this
    exact List.Nodup.of_map _ this
  rw [List.contains_iff_mem]
  constructor
  · intro h
    refine ⟨_, h, ?_⟩
    rw [← facetVertices_eq hf]
    nth_rewrite 1 [← hm]
    exact List.toFinset_eq_of_perm _ _ ((sortIds_perm _).symm.map some)
  · rintro ⟨k, hk, e⟩
    obtain ⟨h1, h2⟩ := G.sorted k hk
    have hp : ((facetVertices m f).filterMap id).Perm k := by
      refine (List.perm_ext_iff_of_nodup hnd h2).2 fun a => ?_
      have h3 : some a ∈ (facetVertices m f).toFinset ↔ some a ∈ (k.map some).toFinset := by rw [facetVertices_eq hf, e]
      simpa using h3
    rw [(sort_eq_iff _ _).2 hp, h1]
    exact hk

theorem isInterface_iff {m : Mesh d} (G : Good m) {f : Nat × Fin (d + 1)} (hf : f.1 < m.tri.cells.length) :
    isInterface m f = true ↔ IsSegment m (m.tri.facet f.1 f.2) := by
  unfold isInterface
  rw [Bool.and_eq_true, List.all_eq_true]
  constructor
  · rintro ⟨h1, h2⟩
    have hn : none ∉ m.tri.facet f.1 f.2 := by
      rw [← facetVertices_eq hf, List.mem_toFinset]
      intro h
      simpa [vertexFlag] using h1 none h
    exact (contains_iff G hf hn).1 h2
  · rintro ⟨k, hk, e⟩
    have hn : none ∉ m.tri.facet f.1 f.2 := by rw [e]; simp
    refine ⟨fun x hx => ?_, (contains_iff G hf hn).2 ⟨k, hk, e⟩⟩
    have : x ∈ (k.map some).toFinset := by rw [← e, ← facetVertices_eq hf]; exact List.mem_toFinset.2 hx
    obtain ⟨v, hv, rfl⟩ := List.mem_map.1 (List.mem_toFinset.1 this)
    exact G.flags k hk v hv

/-- C90: `incidentInterfaceElements` of a vertex or edge visits exactly the interface segments of the mesh that contain it, each once; whether or not CGAL leaves out
infinite facets. -/
theorem C90_elements (m : Mesh d) (G : Good m) (inf : Bool) (S : Finset (Option Nat)) (circ circ' : List (Nat × Fin (d + 1)))
    (h : RunsFacets m.tri inf S circ) (h' : RunsFacets m.tri inf S circ') :
    ∃ l, incidentInterfaceElements m circ circ' = some l ∧ (l.map fun f => m.tri.facet f.1 f.2).Nodup ∧
      ∀ F, F ∈ l.map (fun f => m.tri.facet f.1 f.2) ↔ S ⊆ F ∧ IsFacet m.tri F ∧ IsSegment m F := by
  have hk : ∀ a ∈ circ, ∀ b ∈ circ', m.tri.facet a.1 a.2 = m.tri.facet b.1 b.2 → isInterface m a = isInterface m b := by
    intro a ha b hb e
    rw [Bool.eq_iff_iff, isInterface_iff G (h.2.1 a ha), isInterface_iff G (h'.2.1 b hb), e]
  refine ⟨_, visited_eq _ _ _ (filter_length_of_map h.1 h'.1 (fun F => (h.2.2 F).trans (h'.2.2 F).symm) hk), h.1.sublist ((List.filter_sublist).map _), fun F => ?_⟩
  simp only [List.mem_map, List.mem_filter]
  constructor
  · rintro ⟨f, ⟨hf, hi⟩, rfl⟩
    obtain ⟨h1, h2, -⟩ := (h.2.2 _).1 (List.mem_map.2 ⟨f, hf, rfl⟩)
    exact ⟨h1, h2, (isInterface_iff G (h.2.1 f hf)).1 hi⟩
  · rintro ⟨h1, h2, h3⟩
    have hn : none ∉ F := by obtain ⟨k, -, rfl⟩ := h3; simp
    obtain ⟨f, hf, e⟩ := List.mem_map.1 ((h.2.2 F).2 ⟨h1, h2, fun h => absurd h hn⟩)
    exact ⟨f, ⟨hf, (isInterface_iff G (h.2.1 f hf)).2 (by rw [e]; exact h3)⟩, e⟩

theorem tipLoop_iff (m : Mesh d) (l : List (Nat × Fin (d + 1))) (n : Nat) :
    tipLoop m l n = true ↔ (∀ f ∈ l, facetInfinite m f = false) ∧ n + (l.filter (isInterfaceHost m)).length = 1 := by
  induction l generalizing n with
  | nil => simp [tipLoop]
  | cons f l ih =>
    rw [tipLoop]
    by_cases h : facetInfinite m f
    · simp [h]
    · rw [if_neg h, ih]
      by_cases hi : isInterfaceHost m f <;> simp [h, hi] <;> omega

/-- C90: in 2D a vertex is a tip exactly if no edge joins it to the infinite vertex (it is not on the boundary of the domain) and exactly one interface segment
contains it. -/
theorem C90_tip (m : Mesh 2) (G : Good m) (v : Nat) (circ : List (Nat × Fin 3)) (h : RunsFacets m.tri true {some v} circ) :
    isTip m circ = true ↔ (¬ ∃ F, IsFacet m.tri F ∧ some v ∈ F ∧ none ∈ F) ∧ ∃! F, IsFacet m.tri F ∧ some v ∈ F ∧ IsSegment m F := by
  unfold isTip
  rw [if_neg (by decide), tipLoop_iff, Nat.zero_add]
  have hfin : (∀ f ∈ circ, facetInfinite m f = false) ↔ ¬ ∃ F, IsFacet m.tri F ∧ some v ∈ F ∧ none ∈ F := by
    constructor
    · rintro h1 ⟨F, h2, h3, h4⟩
      obtain ⟨f, hf, e⟩ := List.mem_map.1 ((h.2.2 F).2 ⟨by simpa using h3, h2, fun _ => rfl⟩)
      have := h1 f hf
      unfold facetInfinite at this
      rw [e] at this
      exact absurd h4 (by simpa using this)
    · intro h1 f hf
      unfold facetInfinite
      obtain ⟨h2, h3, -⟩ := (h.2.2 _).1 (List.mem_map.2 ⟨f, hf, rfl⟩)
      simp only [decide_eq_false_iff_not]
      exact fun h4 => h1 ⟨_, h3, by simpa using h2, h4⟩
  refine and_congr_left' hfin |>.trans (and_congr_right fun hno => ?_)
  have hmem : ∀ F, F ∈ (circ.filter (isInterfaceHost m)).map (fun f => m.tri.facet f.1 f.2) ↔ IsFacet m.tri F ∧ some v ∈ F ∧ IsSegment m F := by
    intro F
    simp only [List.mem_map, List.mem_filter]
    constructor
    · rintro ⟨f, ⟨hf, hi⟩, rfl⟩
      obtain ⟨h2, h3, -⟩ := (h.2.2 _).1 (List.mem_map.2 ⟨f, hf, rfl⟩)
      have hv : some v ∈ m.tri.facet f.1 f.2 := by simpa using h2
      exact ⟨h3, hv, (contains_iff G (h.2.1 f hf) fun h4 => hno ⟨_, h3, hv, h4⟩).1 hi⟩
    · rintro ⟨h2, h3, h4⟩
      obtain ⟨f, hf, e⟩ := List.mem_map.1 ((h.2.2 F).2 ⟨by simpa using h3, h2, fun _ => rfl⟩)
      exact ⟨f, ⟨hf, (contains_iff G (h.2.1 f hf) (by rw [e]; exact fun h5 => hno ⟨F, h2, h3, h5⟩)).2 (by rw [e]; exact h4)⟩, e⟩
  have hnd : ((circ.filter (isInterfaceHost m)).map fun f => m.tri.facet f.1 f.2).Nodup := h.1.sublist ((List.filter_sublist).map _)
  rw [← List.length_map (f := fun f : Nat × Fin 3 => m.tri.facet f.1 f.2)]
  constructor
  · intro hl
    obtain ⟨F, hF⟩ := List.length_eq_one_iff.1 hl
    refine ⟨F, (hmem F).1 (by rw [hF]; simp), fun F' h' => ?_⟩
    have := (hmem F').2 h'
    rw [hF] at this
    simpa using this
  · rintro ⟨F, hF, hu⟩
    have hall : ∀ F' ∈ (circ.filter (isInterfaceHost m)).map (fun f => m.tri.facet f.1 f.2), F' = F := fun F' h' => hu F' ((hmem F').1 h')
    have hin := (hmem F).2 hF
    clear hu hmem
    generalize (circ.filter (isInterfaceHost m)).map (fun f => m.tri.facet f.1 f.2) = L at hall hin hnd ⊢
    match L, hall, hin, hnd with
    | [_], _, _, _ => rfl
    | a :: b :: t, hall, _, hnd =>
      have := hall a (by simp)
      have h2 := hall b (by simp)
      rw [this, h2] at hnd
      simp at hnd

/-- C141, what `incidentInterfaceVertices` does: it visits the flagged vertices that are joined by any edge of the mesh, each once. -/
theorem C141_vertices_flagged (m : Mesh d) (v : Option Nat) (circ circ' : List (Option Nat)) (h : RunsVertices m.tri v circ) (h' : RunsVertices m.tri v circ') :
    ∃ l, incidentInterfaceVertices m circ circ' = some l ∧ l.Nodup ∧ ∀ w, w ∈ l ↔ Joined m.tri v w ∧ ∃ i, w = some i ∧ m.flag i = true := by
  refine ⟨_, visited_eq _ _ _ (filter_length_of_runs h.1 h'.1 fun a => (h.2 a).trans (h'.2 a).symm), h.1.filter _, fun w => ?_⟩
  rw [List.mem_filter, h.2]
  cases w <;> simp [vertexFlag]

/-- `v` and `w` are different vertices of an interface segment of the mesh. -/
def Neighbours (m : Mesh d) (v w : Option Nat) : Prop := v ≠ w ∧ ∃ F, IsFacet m.tri F ∧ IsSegment m F ∧ v ∈ F ∧ w ∈ F

/-- C141: the neighbours of a vertex on the interface are visited, and only them if each edge of the mesh between two flagged vertices is an edge of an interface segment.
What is missing: without this condition other vertices are visited too (`C141_vertices_false`). -/
theorem C141_vertices_partial (m : Mesh d) (G : Good m) (v : Nat) (hv : m.flag v = true) (circ circ' : List (Option Nat)) (h : RunsVertices m.tri (some v) circ)
    (h' : RunsVertices m.tri (some v) circ') : ∃ l, incidentInterfaceVertices m circ circ' = some l ∧ l.Nodup ∧ (∀ w, Neighbours m (some v) w → w ∈ l) ∧
      ((∀ a b, m.flag a = true → m.flag b = true → Joined m.tri (some a) (some b) → Neighbours m (some a) (some b)) → ∀ w, w ∈ l ↔ Neighbours m (some v) w) := by
  obtain ⟨l, h1, h2, h3⟩ := C141_vertices_flagged m (some v) circ circ' h h'
  have sub : ∀ w, Neighbours m (some v) w → w ∈ l := by
    rintro w ⟨hne, F, ⟨e, i, he, rfl⟩, ⟨k, hk, ek⟩, hvF, hwF⟩
    rw [h3]
    have hget : m.tri.cells[e]? = some m.tri.cells[e] := List.getElem?_eq_getElem he
    have hw : w ∈ (k.map some).toFinset := by rw [← ek]; exact hwF
    obtain ⟨j, hj, rfl⟩ := List.mem_map.1 (List.mem_toFinset.1 hw)
    rw [facet_eq hget] at hvF hwF
    simp only [facetOf, Finset.mem_image] at hvF hwF
    obtain ⟨a, -, ha⟩ := hvF
    obtain ⟨b, -, hb⟩ := hwF
    exact ⟨⟨hne, _, List.mem_of_getElem? hget, ⟨a, ha⟩, ⟨b, hb⟩⟩, j, rfl, G.flags k hk j hj⟩
  refine ⟨l, h1, h2, sub, fun hall w => ⟨fun hw => ?_, sub w⟩⟩
  obtain ⟨hj, i, rfl, hi⟩ := (h3 w).1 hw
  exact hall v i hv hi hj

/-- Circulators exist for every triangulation. -/
theorem exists_runsCells (T : Tri d) (inf : Bool) (S : Finset (Option Nat)) : ∃ circ, RunsCells T inf S circ := by
  classical
  refine ⟨(List.range T.cells.length).filter fun h => decide (∃ c, T.cells[h]? = some c ∧ ((∃ i, c i = none) → inf = true) ∧ ∀ s ∈ S, ∃ i, c i = s),
    List.nodup_range.filter _, fun h => ?_⟩
  simp only [List.mem_filter, List.mem_range, decide_eq_true_eq, and_iff_right_iff_imp]
  rintro ⟨c, hc, -⟩
  exact (List.getElem?_eq_some_iff.1 hc).1

theorem exists_runsFacets (T : Tri d) (inf : Bool) (S : Finset (Option Nat)) : ∃ circ, RunsFacets T inf S circ := by
  classical
  have key : ∀ Fs : List (Finset (Option Nat)), (∀ F ∈ Fs, IsFacet T F) → ∃ circ : List (Nat × Fin (d + 1)),
      circ.map (fun f => T.facet f.1 f.2) = Fs ∧ ∀ f ∈ circ, f.1 < T.cells.length := by
    intro Fs
    induction Fs with
    | nil => intro _; exact ⟨[], rfl, by simp⟩
    | cons F Fs ih =>
      intro h
      obtain ⟨circ, h1, h2⟩ := ih fun F' h' => h F' (by simp [h'])
      obtain ⟨e, i, he, rfl⟩ := h F (by simp)
      refine ⟨(e, i) :: circ, by simp [h1], ?_⟩
      intro f hf
      rcases List.mem_cons.1 hf with rfl | hf
      · exact he
      · exact h2 f hf
  have hall : ∀ F, F ∈ ((List.range T.cells.length).flatMap fun h => (List.finRange (d + 1)).map fun i => T.facet h i).dedup ↔ IsFacet T F := by
    intro F
    simp [IsFacet, List.mem_dedup]
  obtain ⟨circ, h1, h2⟩ := key ((((List.range T.cells.length).flatMap fun h => (List.finRange (d + 1)).map fun i => T.facet h i).dedup).filter fun F =>
    decide (S ⊆ F ∧ (none ∈ F → inf = true))) fun F hF => (hall F).1 (List.mem_filter.1 hF).1
  refine ⟨circ, by rw [h1]; exact (List.nodup_dedup _).filter _, h2, fun F => ?_⟩
  rw [h1, List.mem_filter, hall, decide_eq_true_eq]
  tauto

theorem exists_runsVertices (T : Tri d) (v : Option Nat) : ∃ circ, RunsVertices T v circ := by
  classical
  refine ⟨((T.cells.flatMap fun c => (List.finRange (d + 1)).map c).dedup).filter fun w => decide (Joined T v w), (List.nodup_dedup _).filter _, fun w => ?_⟩
  simp only [List.mem_filter, decide_eq_true_eq, and_iff_right_iff_imp]
  rintro ⟨-, c, hc, -, j, rfl⟩
  simp only [List.mem_dedup, List.mem_flatMap]
  exact ⟨c, hc, by simp⟩

/-- The mesh of four triangles around vertex 0: (0 1 3), (0 3 2), (0 1 4), (0 4 2), and the triangles (1 3 5), (3 2 5) above. -/
def starMesh : List (Fin 3 → Nat) := [![0, 1, 3], ![0, 3, 2], ![0, 1, 4], ![0, 4, 2], ![1, 3, 5], ![3, 2, 5]]

/-- The interface 1–0–2 and, above it, the segment 3–5. -/
def star : Mesh 2 :=
  { tri := ofTds (buildTds scheme2 starMesh (createElements scheme2 starMesh).st.fmap)
    flag := fun v => decide (v ≠ 4)
    segs := [[0, 1], [0, 2], [3, 5]] }

theorem star_good : Good star := by
  refine ⟨?_, by decide, by decide⟩
  decide +kernel

theorem starMesh_mesh : Factory.Mesh starMesh := by
  apply Mesh.of_check <;> decide +kernel

theorem star_valid : star.tri.Valid := ofTds_valid scheme2_valid starMesh_mesh _ (List.Perm.refl _)

/-- C141 fails for `incidentInterfaceVertices`: vertex 3 is visited from vertex 0, because an edge of the mesh joins them, although no interface segment does. -/
theorem C141_vertices_false : star.tri.Valid ∧ Good star ∧ ∀ circ circ', RunsVertices star.tri (some 0) circ → RunsVertices star.tri (some 0) circ' →
    ∃ l, incidentInterfaceVertices star circ circ' = some l ∧ some 3 ∈ l ∧ ¬ Neighbours star (some 0) (some 3) := by
  refine ⟨star_valid, star_good, fun circ circ' h h' => ?_⟩
  obtain ⟨l, h1, -, h3⟩ := C141_vertices_flagged star (some 0) circ circ' h h'
  refine ⟨l, h1, (h3 _).2 ⟨⟨by simp, ?_⟩, 3, rfl, by decide⟩, ?_⟩
  · exact ⟨_, List.mem_of_getElem? (i := 0) (by decide +kernel : star.tri.cells[0]? = some ![some 0, some 1, some 3]), ⟨0, rfl⟩, ⟨2, rfl⟩⟩
  · rintro ⟨-, F, -, ⟨k, hk, rfl⟩, h4, h5⟩
    revert h4 h5
    revert k
    decide

/-- Positions of the vertices 0, 1, 2, 3: the interface 1–0–2 is straight. -/
noncomputable def starPos : Option Nat → Fin 2 → ℝ
  | some 1 => ![-1, 0]
  | some 2 => ![1, 0]
  | some 3 => ![0, 1]
  | _ => ![0, 0]

/-- interface/curvatureoperator.hh:72-78: the points of a vertex, its position and the ones of the visited vertices. -/
noncomputable def pts (pos : Option Nat → Fin 2 → ℝ) (v : Option Nat) (l : List (Option Nat)) : Curvature.Pts 2 :=
  { n := (v :: l).length, p := fun i => pos ((v :: l).get i) }

theorem star_runs : RunsVertices star.tri (some 0) [some 1, some 3, some 2, some 4] := by
  have hc : star.tri.cells = [![some 0, some 1, some 3], ![some 0, some 3, some 2], ![some 0, some 1, some 4], ![some 0, some 4, some 2], ![some 1, some 3, some 5],
    ![some 3, some 2, some 5]] ++ star.tri.cells.drop 6 := by decide +kernel
  refine ⟨by decide, fun w => ⟨fun hw => ?_, ?_⟩⟩
  · rw [List.mem_cons, List.mem_cons, List.mem_cons, List.mem_singleton] at hw
    rcases hw with rfl | rfl | rfl | rfl
    · exact ⟨by simp, ![some 0, some 1, some 3], by rw [hc]; simp, ⟨0, rfl⟩, ⟨1, rfl⟩⟩
    · exact ⟨by simp, ![some 0, some 1, some 3], by rw [hc]; simp, ⟨0, rfl⟩, ⟨2, rfl⟩⟩
    · exact ⟨by simp, ![some 0, some 3, some 2], by rw [hc]; simp, ⟨0, rfl⟩, ⟨2, rfl⟩⟩
    · exact ⟨by simp, ![some 0, some 1, some 4], by rw [hc]; simp, ⟨0, rfl⟩, ⟨2, rfl⟩⟩
  · rintro ⟨hne, c, hmem, h0, j, rfl⟩
    have : ∀ c ∈ star.tri.cells, (∃ i, c i = some 0) → ∀ j, some 0 ≠ c j → c j ∈ [some 1, some 3, some 2, some 4] := by decide +kernel
    exact this c hmem h0 j hne

theorem four_points (c₀ : Fin 2 → ℝ) : Curvature.curvature (Curvature.getRadius (![![0, 0], ![-1, 0], ![0, 1], ![1, 0]] : Fin 4 → Fin 2 → ℝ) c₀).1 = 6 / 5 := by
  set p : Fin 4 → Fin 2 → ℝ := ![![0, 0], ![-1, 0], ![0, 1], ![1, 0]] with hp
  have hata : Curvature.ata p = !![4, 0, 1; 0, 2, 0; 1, 0, 1] := by
    ext i j
    simp only [Curvature.ata, Fin.sum_univ_four]
    fin_cases i <;> fin_cases j <;> simp [Curvature.matA_2, hp, Curvature.matA] <;> norm_num [Fin.cons] <;> rfl
  have hatb : Curvature.atb p = ![-3, 0, -1] := by
    ext i
    simp only [Curvature.atb, Fin.sum_univ_four]
    fin_cases i <;> simp [Curvature.matA, Curvature.vecB, hp] <;> norm_num [Fin.cons] <;> rfl
  have hdet : (Curvature.ata p).det = 6 := by
    rw [hata, Matrix.det_fin_three]; simp; norm_num
  have hsol : Curvature.solution p = ![-2 / 3, 0, -1 / 3] := by
    unfold Curvature.solution
    have : Curvature.atb p = Matrix.mulVec (Curvature.ata p) ![-2 / 3, 0, -1 / 3] := by
      rw [hata, hatb]
      ext i
      fin_cases i <;> simp [Matrix.mulVec, dotProduct, Fin.sum_univ_three] <;> norm_num
    rw [this, Matrix.mulVec_mulVec, Matrix.nonsing_inv_mul _ (isUnit_iff_ne_zero.2 (by rw [hdet]; norm_num)), Matrix.one_mulVec]
  unfold Curvature.getRadius
  rw [hdet, if_pos (by unfold Curvature.epsilon; norm_num), hsol]
  have e : (|1 / 4 * ∑ j : Fin 2, (![-2 / 3, 0, -1 / 3] : Fin 3 → ℝ) j.succ ^ 2 - (![-2 / 3, 0, -1 / 3] : Fin 3 → ℝ) 0| : ℝ) = (5 / 6) ^ 2 := by
    simp [Fin.sum_univ_two]
    norm_num
  simp only [Curvature.curvature]
  rw [e, Real.sqrt_sq (by norm_num)]
  norm_num

/-- C141, a consequence: the interface 1–0–2 is straight, but its curvature at 0 is 6/5, because vertex 3 of another part of the interface is taken as a neighbour. -/
theorem C141_curvature_false : RunsVertices star.tri (some 0) [some 1, some 3, some 2, some 4] ∧
    ∃ l, incidentInterfaceVertices star [some 1, some 3, some 2, some 4] [some 1, some 3, some 2, some 4] = some l ∧
      ∀ c₀, Curvature.curvature (Curvature.getRadius (pts starPos (some 0) l).p c₀).1 = 6 / 5 ∧
        Curvature.curvature (Curvature.getRadius (pts starPos (some 0) [some 1, some 2]).p c₀).1 = 0 := by
  refine ⟨star_runs, [some 1, some 3, some 2], by decide +kernel, fun c₀ => ⟨?_, ?_⟩⟩
  · have hn : pts starPos (some 0) [some 1, some 3, some 2] = ⟨4, ![![0, 0], ![-1, 0], ![0, 1], ![1, 0]]⟩ := by
      have : (pts starPos (some 0) [some 1, some 3, some 2]).p = (![![0, 0], ![-1, 0], ![0, 1], ![1, 0]] : Fin 4 → Fin 2 → ℝ) := by
        funext i
        fin_cases i <;> rfl
      exact congrArg (Curvature.Pts.mk 4) this
    rw [hn]
    exact four_points c₀
  · rw [Curvature.C47_flat]
    · rfl
    · refine ⟨0, ![0, 1], Or.inr ?_, ?_⟩
      · intro h; simpa using congrFun h 1
      · intro i
        fin_cases i <;> simp [pts, starPos, Fin.sum_univ_two]

/-- Vertex 3 is a tip (its edges seen from the cells 0, 1, 4, 5), vertex 0 is not. Circulators as in the hypotheses exist (`exists_runsFacets`). -/
example : isTip star [(0, 1), (0, 0), (1, 0), (4, 0)] = true ∧ isTip star [(0, 2), (0, 1), (1, 1), (2, 1)] = false ∧
    [(0, 1), (0, 0), (1, 0), (4, 0)].map (fun f : Nat × Fin 3 => star.tri.facet f.1 f.2) = [{some 0, some 3}, {some 1, some 3}, {some 3, some 2}, {some 3, some 5}] := by
  decide +kernel

/-! ## C91 -/

/-- C91: in 3D an edge is an interface edge exactly if both of its vertices belong to a common interface segment. -/
theorem C91_edge (m : Mesh 3) (G : Good m) (h3 : ∀ k ∈ m.segs, k.length = 3) (a b : Nat) (hab : a ≠ b) :
    isInterfaceEdge m a b = true ↔ ∃ k ∈ m.segs, a ∈ k ∧ b ∈ k := by
  have key : ∀ k ∈ m.segs, ((k[0]? == (sortIds [a, b])[0]? && k[1]? == (sortIds [a, b])[1]?) || (k[1]? == (sortIds [a, b])[0]? && k[2]? == (sortIds [a, b])[1]?) ||
      (k[0]? == (sortIds [a, b])[0]? && k[2]? == (sortIds [a, b])[1]?)) = true ↔ a ∈ k ∧ b ∈ k := by
    intro k hk
    have hs : k.Pairwise (· < ·) := by
      obtain ⟨e1, e2⟩ := G.sorted k hk
      rw [← e1]; exact sortIds_strict e2
    match k, h3 k hk, hs with
    | [x, y, z], _, hs =>
      simp only [List.pairwise_cons, List.mem_cons, List.not_mem_nil, or_false, forall_eq_or_imp, forall_eq, List.Pairwise.nil, and_true] at hs
      obtain ⟨⟨hxy, hxz⟩, hyz, -⟩ := hs
      rcases Nat.lt_or_gt_of_ne hab with hlt | hlt
      · have : sortIds [a, b] = [a, b] := sortIds_of_strict (by simp [hlt])
        rw [this]
        simp
        omega
      · have : sortIds [a, b] = [b, a] := by
          rw [(sort_eq_iff [a, b] [b, a]).2 (List.Perm.swap b a [])]
          exact sortIds_of_strict (by simp [hlt])
        rw [this]
        simp
        omega
  unfold isInterfaceEdge
  constructor
  · intro h
    by_cases ha : m.flag a
    · by_cases hb : m.flag b
      · simp only [ha, hb, Bool.not_true, Bool.false_eq_true, if_false] at h
        obtain ⟨k, hk, h4⟩ := List.any_eq_true.1 h
        exact ⟨k, hk, (key k hk).1 h4⟩
      · simp [ha, hb] at h
    · simp [ha] at h
  · rintro ⟨k, hk, h1, h2⟩
    have ha := G.flags k hk a h1
    have hb := G.flags k hk b h2
    simp only [ha, hb, Bool.not_true, Bool.false_eq_true, if_false]
    exact List.any_eq_true.2 ⟨k, hk, (key k hk).2 ⟨h1, h2⟩⟩

/-- C91: `isOnInterface` of an element is true exactly if one of its facets is an interface segment. -/
theorem C91_element (m : Mesh d) (G : Good m) (h : Nat) (hh : h < m.tri.cells.length) : isOnInterface m h = true ↔ ∃ i, IsSegment m (m.tri.facet h i) := by
  unfold isOnInterface
  rw [List.any_eq_true]
  constructor
  · rintro ⟨i, -, hi⟩; exact ⟨i, (isInterface_iff G (f := (h, i)) hh).1 hi⟩
  · rintro ⟨i, hi⟩; exact ⟨i, List.mem_finRange i, (isInterface_iff G (f := (h, i)) hh).2 hi⟩

/-- Two tetrahedra whose common facet is the interface. -/
def ex3 : Mesh 3 :=
  { tri := ofTds (buildTds scheme3 exMesh3 (createElements scheme3 exMesh3).st.fmap)
    flag := fun v => decide (1 ≤ v ∧ v ≤ 3)
    segs := [[1, 2, 3]] }

/-- The hypotheses of C91 hold for it. -/
example : Good ex3 ∧ (∀ k ∈ ex3.segs, k.length = 3) ∧ isInterfaceEdge ex3 3 1 = true ∧ isInterfaceEdge ex3 0 1 = false ∧ isOnInterface ex3 0 = true := by
  refine ⟨⟨?_, by decide, by decide⟩, by decide, by decide, by decide, by decide +kernel⟩
  decide +kernel

end Verif.Incident
