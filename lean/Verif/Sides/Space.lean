import Verif.Sides.Add
import Verif.Refine.Global

/-!
# Sides of the interface in three dimensions
-/

namespace Verif.Sides

open Finset Verif.Refine Verif.MoveGeo

/-! ## Any dimension: requests that do not concern the interface -/

section
variable {d : ℕ}

/-- An interface facet stays a facet if a vertex is inserted somewhere else. -/
theorem facets_insertAt {M : Mesh (Fin d → ℝ) d} {I : Finset ℕ → Prop} (hI : Facets M I) {F : Finset ℕ} {m : ℕ} {x : Fin d → ℝ} (hoff : ∀ G, I G → ¬ F ⊆ G) :
    Facets (insertAt M F m x) I := by
  intro G hG
  obtain ⟨h1, c, hc, hGc⟩ := hI G hG
  refine ⟨h1, ?_⟩
  by_cases hF : F ⊆ verts c
  · obtain ⟨v, hv, hvG⟩ := Finset.not_subset.1 (hoff G hG)
    obtain ⟨i, rfl⟩ := mem_verts.1 (hF hv)
    refine ⟨Function.update c i m, mem_insertAt.2 ⟨c, hc, Or.inr ⟨hF, i, hv, rfl⟩⟩, fun u hu => ?_⟩
    obtain ⟨j, rfl⟩ := mem_verts.1 (hGc hu)
    refine mem_verts.2 ⟨j, Function.update_of_ne ?_ _ _⟩
    rintro rfl
    exact hvG hu
  · exact ⟨c, mem_insertAt.2 ⟨c, hc, Or.inl ⟨hF, rfl⟩⟩, hGc⟩

/-- … and where it was. -/
theorem interfaceSet_insertAt {M : Mesh (Fin d → ℝ) d} {I : Finset ℕ → Prop} (hI : Facets M I) {F : Finset ℕ} {m : ℕ} {x : Fin d → ℝ} (hm : Fresh M m) :
    interfaceSet (insertAt M F m x) I = interfaceSet M I := by
  have : ∀ G, I G → (insertAt M F m x).pos '' (G : Set ℕ) = M.pos '' (G : Set ℕ) := by
    intro G hG
    obtain ⟨-, c, hc, hGc⟩ := hI G hG
    refine Set.image_congr fun v hv => ?_
    obtain ⟨i, rfl⟩ := mem_verts.1 (hGc hv)
    exact Function.update_of_ne (hm c hc i) _ _
  ext p
  constructor
  · rintro ⟨G, hG, h⟩
    rw [this G hG] at h
    exact ⟨G, hG, h⟩
  · rintro ⟨G, hG, h⟩
    rw [← this G hG] at h
    exact ⟨G, hG, h⟩

/-- The insertion loop, for requests that do not concern the interface. -/
theorem run_off {M M' : Mesh (Fin d → ℝ) d} {rs : List (Req (Fin d → ℝ))} (hrun : Run ℝ M rs M') {I : Finset ℕ → Prop} (hI : Facets M I)
    (hinj : ∀ c ∈ M.cells, Function.Injective c)
    (hcell : ∀ pre r post M1, rs = pre ++ r :: post → Run ℝ M pre M1 → r.edge = none → InElement ℝ M1 r.point)
    (hoff : ∀ r ∈ rs, ∀ a b, r.edge = some (a, b) → ∀ F, I F → ¬ (a ∈ F ∧ b ∈ F)) :
    Facets M' I ∧ interfaceSet M' I = interfaceSet M I := by
  induction hrun with
  | nil => exact ⟨hI, rfl⟩
  | @cons M1 M2 M3 r rs hstep hrest ih =>
    have hcell' : ∀ pre r' post M4, rs = pre ++ r' :: post → Run ℝ M2 pre M4 → r'.edge = none → InElement ℝ M4 r'.point :=
      fun pre r' post M4 h1 h2 h3 => hcell (r :: pre) r' post M4 (by rw [h1]; rfl) (Run.cons hstep h2) h3
    have hoff' : ∀ r' ∈ rs, ∀ a b, r'.edge = some (a, b) → ∀ F, I F → ¬ (a ∈ F ∧ b ∈ F) := fun r' hr' => hoff r' (List.mem_cons_of_mem _ hr')
    have key : Facets M2 I ∧ interfaceSet M2 I = interfaceSet M1 I ∧ ∀ c ∈ M2.cells, Function.Injective c := by
      cases hstep with
      | dropped => exact ⟨hI, rfl, hinj⟩
      | @edge a b x m c hc hab ha hb hm =>
        refine ⟨facets_insertAt hI fun G hG hs => ?_, interfaceSet_insertAt hI hm, injective_insertAt hm hinj⟩
        exact hoff _ List.mem_cons_self a b rfl G hG ⟨hs (by simp), hs (by simp)⟩
      | @cell x m c hc _ hm =>
        refine ⟨facets_insertAt hI fun G hG hs => ?_, interfaceSet_insertAt hI hm, injective_insertAt hm hinj⟩
        have h1 := Finset.card_le_card hs
        rw [(hI G hG).1, Finset.card_image_of_injective _ (hinj c hc), Finset.card_fin] at h1
        omega
      | @outside x m c i hc hout _ _ =>
        obtain ⟨⟨c', hc', h'⟩, -⟩ := hcell [] _ rs _ rfl Run.nil rfl
        exact absurd h' (hout c' hc')
    obtain ⟨k1, k2, k3⟩ := key
    obtain ⟨j1, j2⟩ := ih k1 k3 hcell' hoff'
    exact ⟨j1, j2.trans k2⟩

/-- **C209** Refinement of edges that belong to no interface facet and insertion of vertices inside elements, in every dimension: the interface consists of the same facets at the same
place, and its sides are the same parts of the domain, equally many. -/
theorem C209_adapt (hd : 0 < d) {M M' : Mesh (Fin d → ℝ) d} {rs : List (Req (Fin d → ℝ))} (hM : Proper ℝ M) {I : Finset ℕ → Prop} (hI : Facets M I) (hrun : Run ℝ M rs M')
    (hedge : ∀ r ∈ rs, ∀ e, r.edge = some e → OnEdge ℝ M r)
    (hcell : ∀ pre r post M1, rs = pre ++ r :: post → Run ℝ M pre M1 → r.edge = none → InElement ℝ M1 r.point)
    (hoff : ∀ r ∈ rs, ∀ a b, r.edge = some (a, b) → ∀ F, I F → ¬ (a ∈ F ∧ b ∈ F)) :
    Proper ℝ M' ∧ Facets M' I ∧ interfaceSet M' I = interfaceSet M I ∧
      {R | ∃ A ∈ sides M' I, R = region M' A} = {R | ∃ A ∈ sides M I, R = region M A} ∧ (sides M' I).ncard = (sides M I).ncard := by
  obtain ⟨h1, h2, -⟩ := hM.refined hd hrun hedge hcell
  obtain ⟨h3, h4⟩ := run_off hrun hI hM.conforming.inj hcell hoff
  exact ⟨h1, h3, h4, C202_regions hd hM h1 hI h3 h2 h4, C202_number hd hM h1 hI h3 h2 h4⟩

end

/-! ## The grid of dimension 3 -/

/-- The grid of dimension 3: the triangulation `hostgrid_` and what concerns the interface (mmesh.hh:1795-1815). The edges and the next id in `InterfaceOps.State` are not used. -/
structure Grid3 where
  M : Mesh (Fin 3 → ℝ) 3
  s : InterfaceOps.State

/-- `isInterface(edge)` in 3D (mmesh.hh:624-646): both vertices are flagged and a key of `interfaceSegments_` has the sorted ids at two of its three places. -/
def isInterfaceEdge (s : InterfaceOps.State) (a b : ℕ) : Bool :=
  s.flag a && s.flag b && s.segs.any fun e =>
    let ids := RefElem.sortIds [a, b]
    (e.1[0]? == ids[0]? && e.1[1]? == ids[1]?) || (e.1[1]? == ids[0]? && e.1[2]? == ids[1]?) || (e.1[0]? == ids[0]? && e.1[2]? == ids[1]?)

/-- The facets for which `isInterface` is true (mmesh.hh:607-621). -/
def interface3 (s : InterfaceOps.State) (F : Finset ℕ) : Prop := ∃ a b c, F = {a, b, c} ∧ InterfaceOps.isInterfaceBulk s [a, b, c] = true

/-- What holds of a grid: a conforming mesh of positively oriented elements, and interface segments that are facets with flagged vertices. -/
structure Valid3 (g : Grid3) : Prop where
  mesh : Proper ℝ g.M
  segs : ∀ e ∈ g.s.segs, ∃ a b c, a ≠ b ∧ a ≠ c ∧ b ≠ c ∧ e.1 = RefElem.sortIds [a, b, c] ∧ g.s.flag a = true ∧ g.s.flag b = true ∧ g.s.flag c = true ∧
    ∃ t ∈ g.M.cells, {a, b, c} ⊆ verts t

/-- What a program does with a grid in three dimensions: adaptations with requests for edges that are not in the interface (the marks of elements of the bulk grid only give such
requests, mmesh.hh:845) and vertices inside elements, movements after which all elements have positive volume and which leave the boundary as it is, and `addInterface` of a facet
(mmesh.hh:374-399). For edges of the interface the code reads outside of a vector (C26). -/
inductive Act3 (g : Grid3) : Grid3 → Prop
  | adapt {M' rs} : Run ℝ g.M rs M' → (∀ r ∈ rs, ∀ e, r.edge = some e → OnEdge ℝ g.M r) →
      (∀ pre r post M1, rs = pre ++ r :: post → Run ℝ g.M pre M1 → r.edge = none → InElement ℝ M1 r.point) →
      (∀ r ∈ rs, ∀ a b, r.edge = some (a, b) → isInterfaceEdge g.s a b = false) → Act3 g ⟨M', g.s⟩
  | move {pos : ℕ → Fin 3 → ℝ} : (∀ c ∈ g.M.cells, 0 < signedVolume fun i => pos (c i)) → (∀ v ∈ vertices g.M, ¬ Inner g.M v → pos v = g.M.pos v) →
      Act3 g ⟨{ g.M with pos := pos }, g.s⟩
  | add {a b c k} : a ≠ b → a ≠ c → b ≠ c → (∃ t ∈ g.M.cells, {a, b, c} ⊆ verts t) → Act3 g ⟨g.M, InterfaceOps.addInterface g.s [a, b, c] k⟩

theorem toFinset_sort (a b c : ℕ) : (RefElem.sortIds [a, b, c]).toFinset = {a, b, c} := by
  ext v
  rw [List.mem_toFinset, (RefElem.sortIds_perm _).mem_iff]
  simp

/-- The interface facets are those of the list. -/
theorem interface3_iff {g : Grid3} (h : Valid3 g) {F : Finset ℕ} : interface3 g.s F ↔ ∃ l ∈ g.s.segs.map Prod.fst, F = l.toFinset := by
  constructor
  · rintro ⟨a, b, c, rfl, hi⟩
    simp only [InterfaceOps.isInterfaceBulk, Bool.and_eq_true] at hi
    refine ⟨RefElem.sortIds [a, b, c], Map.find_isSome_iff.1 (Option.isSome_iff_exists.1 hi.2), (toFinset_sort a b c).symm⟩
  · rintro ⟨l, hl, rfl⟩
    obtain ⟨e, he, rfl⟩ := List.mem_map.1 hl
    obtain ⟨a, b, c, -, -, -, hk, h1, h2, h3, -⟩ := h.segs e he
    refine ⟨a, b, c, by rw [hk, toFinset_sort], ?_⟩
    simp only [InterfaceOps.isInterfaceBulk, Bool.and_eq_true, List.all_cons, List.all_nil, h1, h2, h3, and_self, true_and]
    rw [← hk]
    exact Option.isSome_iff_exists.2 (Map.find_isSome_iff.2 hl)

theorem facets_of3 {g : Grid3} (h : Valid3 g) : Facets g.M (interface3 g.s) := by
  intro F hF
  obtain ⟨l, hl, rfl⟩ := (interface3_iff h).1 hF
  obtain ⟨e, he, rfl⟩ := List.mem_map.1 hl
  obtain ⟨a, b, c, hab, hac, hbc, hk, -, -, -, ht⟩ := h.segs e he
  rw [hk, toFinset_sort]
  exact ⟨Finset.card_eq_three.2 ⟨a, b, c, hab, hac, hbc, rfl⟩, ht⟩

theorem sort_two {a b : ℕ} (hab : a ≠ b) : ∃ x y, x < y ∧ RefElem.sortIds [a, b] = [x, y] ∧ ((x = a ∧ y = b) ∨ (x = b ∧ y = a)) := by
  rcases lt_or_gt_of_ne hab with h | h
  · exact ⟨a, b, h, RefElem.sortIds_of_strict (by simpa using h), Or.inl ⟨rfl, rfl⟩⟩
  · refine ⟨b, a, h, ?_, Or.inr ⟨rfl, rfl⟩⟩
    rw [← RefElem.sortIds_of_strict (l := [b, a]) (by simpa using h)]
    exact InterfaceOps.sort_eq_iff.2 (List.Perm.swap _ _ _)

theorem sort_three {a b c : ℕ} (hab : a ≠ b) (hac : a ≠ c) (hbc : b ≠ c) : ∃ x y z, x < y ∧ y < z ∧ RefElem.sortIds [a, b, c] = [x, y, z] := by
  have hlen : (RefElem.sortIds [a, b, c]).length = 3 := (RefElem.sortIds_perm _).length_eq
  have hs := RefElem.sortIds_strict (l := [a, b, c]) (by simp [hab, hac, hbc])
  match h : RefElem.sortIds [a, b, c], hlen with
  | [x, y, z], _ =>
    rw [h] at hs
    simp at hs
    exact ⟨x, y, z, hs.1.1, hs.2, rfl⟩

/-- **C209** In 3D `isInterface(edge)` is true exactly for the edges of interface facets. -/
theorem C209_isInterface {g : Grid3} (h : Valid3 g) {a b : ℕ} (hab : a ≠ b) :
    isInterfaceEdge g.s a b = true ↔ ∃ F, interface3 g.s F ∧ a ∈ F ∧ b ∈ F := by
  obtain ⟨x, y, hxy, hs, hx⟩ := sort_two hab
  simp only [isInterfaceEdge, hs, Bool.and_eq_true, List.any_eq_true, Bool.or_eq_true, beq_iff_eq]
  constructor
  · rintro ⟨-, e, he, hcase⟩
    refine ⟨e.1.toFinset, (interface3_iff h).2 ⟨e.1, List.mem_map_of_mem he, rfl⟩, ?_⟩
    have hxm : x ∈ e.1 ∧ y ∈ e.1 := by
      rcases hcase with (⟨h1, h2⟩ | ⟨h1, h2⟩) | ⟨h1, h2⟩ <;> exact ⟨List.mem_of_getElem? h1, List.mem_of_getElem? h2⟩
    rw [List.mem_toFinset, List.mem_toFinset]
    rcases hx with ⟨rfl, rfl⟩ | ⟨rfl, rfl⟩
    · exact hxm
    · exact hxm.symm
  · rintro ⟨F, hF, haF, hbF⟩
    obtain ⟨l, hl, rfl⟩ := (interface3_iff h).1 hF
    obtain ⟨e, he, rfl⟩ := List.mem_map.1 hl
    obtain ⟨u, v, w, huv, huw, hvw, hk, f1, f2, f3, -⟩ := h.segs e he
    have hflag : ∀ t ∈ e.1, g.s.flag t = true := by
      intro t ht
      rw [hk, (RefElem.sortIds_perm _).mem_iff] at ht
      simp only [List.mem_cons, List.not_mem_nil, or_false] at ht
      rcases ht with rfl | rfl | rfl <;> assumption
    rw [List.mem_toFinset] at haF hbF
    refine ⟨⟨hflag a haF, hflag b hbF⟩, e, he, ?_⟩
    obtain ⟨p, q, r, hpq, hqr, hsort⟩ := sort_three huv huw hvw
    rw [hsort] at hk
    rw [hk] at haF hbF ⊢
    have hm : x ∈ [p, q, r] ∧ y ∈ [p, q, r] := by
      rcases hx with ⟨rfl, rfl⟩ | ⟨rfl, rfl⟩
      · exact ⟨haF, hbF⟩
      · exact ⟨hbF, haF⟩
    simp only [List.mem_cons, List.not_mem_nil, or_false] at hm
    simp only [List.getElem?_cons_zero, List.getElem?_cons_succ, Option.some.injEq]
    omega

/-- `addInterface` of a facet. -/
theorem Valid3.addInterface {g : Grid3} (h : Valid3 g) {a b c : ℕ} (hab : a ≠ b) (hac : a ≠ c) (hbc : b ≠ c) (ht : ∃ t ∈ g.M.cells, {a, b, c} ⊆ verts t) (k : ℕ) :
    Valid3 ⟨g.M, InterfaceOps.addInterface g.s [a, b, c] k⟩ := by
  refine ⟨h.mesh, ?_⟩
  unfold InterfaceOps.addInterface
  split
  · exact h.segs
  · intro e he
    have := Map.mem_keys_insert.1 (List.mem_map_of_mem (f := Prod.fst) he)
    rcases this with he' | he'
    · obtain ⟨e', he1, he2⟩ := List.mem_map.1 he'
      obtain ⟨u, v, w, h1, h2, h3, hk, f1, f2, f3, hc⟩ := h.segs e' he1
      refine ⟨u, v, w, h1, h2, h3, he2 ▸ hk, ?_, ?_, ?_, hc⟩ <;> simp only <;> split_ifs <;> first | rfl | assumption
    · exact ⟨a, b, c, hab, hac, hbc, he', by simp, by simp, by simp, ht⟩

theorem interface3_add {g : Grid3} (h : Valid3 g) {a b c : ℕ} (hab : a ≠ b) (hac : a ≠ c) (hbc : b ≠ c) (ht : ∃ t ∈ g.M.cells, {a, b, c} ⊆ verts t) (k : ℕ) :
    interface3 (InterfaceOps.addInterface g.s [a, b, c] k) = withFacet (interface3 g.s) {a, b, c} := by
  funext F
  apply propext
  rw [interface3_iff (h.addInterface hab hac hbc ht k)]
  unfold withFacet
  rw [interface3_iff h]
  by_cases hb : InterfaceOps.isInterfaceBulk g.s [a, b, c] = true
  · have : InterfaceOps.addInterface g.s [a, b, c] k = g.s := by
      unfold InterfaceOps.addInterface
      simp [hb]
    simp only [this]
    refine ⟨Or.inl, fun hF => hF.elim id ?_⟩
    rintro rfl
    exact (interface3_iff h).1 ⟨a, b, c, rfl, hb⟩
  · have hseg : (InterfaceOps.addInterface g.s [a, b, c] k).segs = Map.insert g.s.segs (RefElem.sortIds [a, b, c]) k := by
      unfold InterfaceOps.addInterface
      simp [hb]
    simp only [hseg, Map.mem_keys_insert]
    constructor
    · rintro ⟨l, hl | rfl, rfl⟩
      · exact Or.inl ⟨l, hl, rfl⟩
      · exact Or.inr (toFinset_sort a b c)
    · rintro (⟨l, hl, rfl⟩ | rfl)
      · exact ⟨l, Or.inl hl, rfl⟩
      · exact ⟨_, Or.inr rfl, (toFinset_sort a b c).symm⟩

/-- `isInterface` depends only on which facets are in the interface; an edge request off the interface meets no interface facet. -/
theorem off_interface {g : Grid3} (h : Valid3 g) {r : Req (Fin 3 → ℝ)} (hr : OnEdge ℝ g.M r) {a b : ℕ} (he : r.edge = some (a, b)) (hi : isInterfaceEdge g.s a b = false) :
    ∀ F, interface3 g.s F → ¬ (a ∈ F ∧ b ∈ F) := by
  intro F hF hab
  obtain ⟨c, hc, i, j, hij, t, -, -, rfl⟩ := hr
  simp only [refineEdge, Option.some.injEq, Prod.mk.injEq] at he
  obtain ⟨rfl, rfl⟩ := he
  have := (C209_isInterface h (fun e => hij (h.mesh.conforming.inj c hc e))).2 ⟨F, hF, hab⟩
  rw [hi] at this
  exact absurd this (by simp)

/-- **C209** `addInterface` of a facet in 3D: no two sides become one; the number of sides stays, or grows by one if the facet lies between two elements such that after the call one does not
come from one of them to the other one. -/
theorem C209_addInterface {g : Grid3} (h : Valid3 g) {a b c : ℕ} (hab : a ≠ b) (hac : a ≠ c) (hbc : b ≠ c) (ht : ∃ t ∈ g.M.cells, {a, b, c} ⊆ verts t) (k : ℕ) :
    (∀ x y, SameSide g.M (interface3 (InterfaceOps.addInterface g.s [a, b, c] k)) x y → SameSide g.M (interface3 g.s) x y) ∧
    (sides g.M (interface3 (InterfaceOps.addInterface g.s [a, b, c] k))).ncard = (sides g.M (interface3 g.s)).ncard +
      (open Classical in if InterfaceOps.isInterfaceBulk g.s [a, b, c] = false ∧ ∃ c₁ ∈ g.M.cells, ∃ c₂ ∈ g.M.cells, {a, b, c} ⊆ verts c₁ ∧ {a, b, c} ⊆ verts c₂ ∧
        ¬ SameSide g.M (interface3 (InterfaceOps.addInterface g.s [a, b, c] k)) c₁ c₂ then 1 else 0) := by
  have hF : ({a, b, c} : Finset ℕ).card = 3 := Finset.card_eq_three.2 ⟨a, b, c, hab, hac, hbc, rfl⟩
  rw [interface3_add h hab hac hbc ht k]
  refine ⟨fun x y hs => C208_finer hs, ?_⟩
  by_cases hb : InterfaceOps.isInterfaceBulk g.s [a, b, c] = true
  · have : withFacet (interface3 g.s) {a, b, c} = interface3 g.s := by
      funext G
      exact propext ⟨fun hG => hG.elim id fun hG => ⟨a, b, c, hG, hb⟩, Or.inl⟩
    rw [this, if_neg (by simp [hb])]
    rfl
  · have hn : ¬ interface3 g.s {a, b, c} := by
      rintro ⟨u, v, w, huvw, hi⟩
      refine hb ?_
      have hp : [a, b, c].Perm [u, v, w] := by
        refine ((List.subperm_of_subset (by simp [hab, hac, hbc]) fun t ht => ?_).perm_of_length_le (by simp))
        have : t ∈ ({u, v, w} : Finset ℕ) := huvw ▸ by simpa using ht
        simpa using this
      unfold InterfaceOps.isInterfaceBulk at hi ⊢
      rw [InterfaceOps.sort_eq_iff.2 hp]
      simp only [Bool.and_eq_true, List.all_eq_true] at hi ⊢
      exact ⟨fun t ht => hi.1 t (hp.mem_iff.1 ht), hi.2⟩
    obtain ⟨c₁, h₁, hf₁⟩ := ht
    by_cases h2 : ∃ c₂ ∈ g.M.cells, {a, b, c} ⊆ verts c₂ ∧ c₁ ≠ c₂
    · obtain ⟨c₂, h₂, hf₂, hne⟩ := h2
      obtain ⟨n1, n2⟩ := C208_number h.mesh hF h₁ h₂ hne hf₁ hf₂ hn
      by_cases hs : SameSide g.M (withFacet (interface3 g.s) {a, b, c}) c₁ c₂
      · rw [n1 hs, if_neg, add_zero]
        rintro ⟨-, x, hx, y, hy, fx, fy, hxy⟩
        apply hxy
        rcases two_elements h.mesh hF h₁ h₂ hx hne hf₁ hf₂ fx with rfl | rfl <;> rcases two_elements h.mesh hF h₁ h₂ hy hne hf₁ hf₂ fy with rfl | rfl
        · exact Relation.ReflTransGen.refl
        · exact hs
        · exact hs.symm
        · exact Relation.ReflTransGen.refl
      · rw [n2 hs, if_pos ⟨by simpa using hb, c₁, h₁, c₂, h₂, hf₁, hf₂, hs⟩]
    · have hone : ∀ e ∈ g.M.cells, {a, b, c} ⊆ verts e → e = c₁ := by
        intro e he' hfe
        by_contra hne
        exact h2 ⟨e, he', hfe, fun h => hne h.symm⟩
      rw [C208_boundary h.mesh hF h₁ hf₁ hone, if_neg]
      · rfl
      · rintro ⟨-, x, hx, y, hy, fx, fy, hxy⟩
        rw [hone x hx fx, hone y hy fy] at hxy
        exact hxy Relation.ReflTransGen.refl

theorem adapt3 {g : Grid3} (h : Valid3 g) {M' : Mesh (Fin 3 → ℝ) 3} {rs : List (Req (Fin 3 → ℝ))} (hrun : Run ℝ g.M rs M') (hedge : ∀ r ∈ rs, ∀ e, r.edge = some e → OnEdge ℝ g.M r)
    (hcell : ∀ pre r post M1, rs = pre ++ r :: post → Run ℝ g.M pre M1 → r.edge = none → InElement ℝ M1 r.point)
    (hoff : ∀ r ∈ rs, ∀ a b, r.edge = some (a, b) → isInterfaceEdge g.s a b = false) :
    Valid3 ⟨M', g.s⟩ ∧ domain ℝ M' = domain ℝ g.M ∧ interfaceSet M' (interface3 g.s) = interfaceSet g.M (interface3 g.s) ∧
      {R | ∃ A ∈ sides M' (interface3 g.s), R = region M' A} = {R | ∃ A ∈ sides g.M (interface3 g.s), R = region g.M A} ∧
      (sides M' (interface3 g.s)).ncard = (sides g.M (interface3 g.s)).ncard := by
  obtain ⟨h1, h2, h3, h4, h5⟩ := C209_adapt (by decide) h.mesh (facets_of3 h) hrun hedge hcell
    (fun r hr a b he => off_interface h (hedge r hr (a, b) he) he (hoff r hr a b he))
  refine ⟨⟨h1, fun e he => ?_⟩, (h.mesh.refined (by decide) hrun hedge hcell).2.1, h3, h4, h5⟩
  obtain ⟨a, b, c, hab, hac, hbc, hk, f1, f2, f3, -⟩ := h.segs e he
  refine ⟨a, b, c, hab, hac, hbc, hk, f1, f2, f3, ?_⟩
  have := (h2 _ ((interface3_iff h).2 ⟨e.1, List.mem_map_of_mem he, rfl⟩)).2
  rwa [hk, toFinset_sort] at this

theorem act3 {g g' : Grid3} (h : Valid3 g) (ha : Act3 g g') : Valid3 g' ∧ domain ℝ g'.M = domain ℝ g.M ∧
    (sides g.M (interface3 g.s)).ncard ≤ (sides g'.M (interface3 g'.s)).ncard ∧
      (g'.s = g.s → (sides g'.M (interface3 g'.s)).ncard = (sides g.M (interface3 g.s)).ncard) := by
  cases ha with
  | adapt hrun hedge hcell hoff =>
    obtain ⟨h1, h2, -, -, h3⟩ := adapt3 h hrun hedge hcell hoff
    exact ⟨h1, h2, h3.ge, fun _ => h3⟩
  | @move pos hp hb =>
    have := result (pos := pos) h.mesh.conforming h.mesh.once h.mesh.positive hp hb
    exact ⟨⟨⟨this.1, hp, h.mesh.once⟩, h.segs⟩, this.2, le_rfl, fun _ => rfl⟩
  | @add a b c k hab hac hbc ht =>
    refine ⟨h.addInterface hab hac hbc ht k, rfl, ?_, fun e => ?_⟩
    · rw [(C209_addInterface h hab hac hbc ht k).2]
      exact Nat.le_add_right _ _
    · show (sides g.M (interface3 (InterfaceOps.addInterface g.s [a, b, c] k))).ncard = _
      rw [show InterfaceOps.addInterface g.s [a, b, c] k = g.s from e]

/-- **C209** Adaptations off the interface, movements and calls of `addInterface` in three dimensions, in any number and order: interface segments stay facets of the mesh with flagged
vertices, the domain is the same, and the number of sides does not decrease. -/
theorem C209_history {g g' : Grid3} (h : Valid3 g) (hr : Relation.ReflTransGen Act3 g g') :
    Valid3 g' ∧ domain ℝ g'.M = domain ℝ g.M ∧ (sides g.M (interface3 g.s)).ncard ≤ (sides g'.M (interface3 g'.s)).ncard := by
  induction hr with
  | refl => exact ⟨h, rfl, le_rfl⟩
  | tail _ hs ih =>
    obtain ⟨h1, h2, h3⟩ := ih
    obtain ⟨k1, k2, k3, -⟩ := act3 h1 hs
    exact ⟨k1, k2.trans h2, h3.trans k3⟩

/-- **C209** As long as nothing is added to the interface, the number of sides stays the same. -/
theorem C209_number {g g' : Grid3} (h : Valid3 g) (hr : Relation.ReflTransGen (fun g g' => Act3 g g' ∧ g'.s = g.s) g g') :
    (sides g'.M (interface3 g'.s)).ncard = (sides g.M (interface3 g.s)).ncard := by
  suffices Valid3 g' ∧ (sides g'.M (interface3 g'.s)).ncard = (sides g.M (interface3 g.s)).ncard from this.2
  induction hr with
  | refl => exact ⟨h, rfl⟩
  | tail _ hs ih =>
    obtain ⟨h1, h2⟩ := ih
    obtain ⟨k1, -, -, k2⟩ := act3 h1 hs.1
    exact ⟨k1, (k2 hs.2).trans h2⟩

/-- **C209** `globalRefine` in three dimensions, whatever the interface: interface segments stay facets and where they are, and the sides of the interface are the same parts of the domain. -/
theorem C209_global {len : (Fin 3 → ℝ) → (Fin 3 → ℝ) → ℝ} (hsym : ∀ p q, len p q = len q p) (hpos : ∀ p q, 0 ≤ len p q)
    {edges : List (Fin 4 × Fin 4)} (hedges : LongestEdge.AllEdges edges) {s : InterfaceOps.State} {n : ℕ} {M M' : Mesh (Fin 3 → ℝ) 3} (h : Valid3 ⟨M, s⟩)
    (hr : GlobalRefine len edges (isInterfaceEdge s) n M M') :
    Valid3 ⟨M', s⟩ ∧ interfaceSet M' (interface3 s) = interfaceSet M (interface3 s) ∧
      {R | ∃ A ∈ sides M' (interface3 s), R = region M' A} = {R | ∃ A ∈ sides M (interface3 s), R = region M A} ∧
      (sides M' (interface3 s)).ncard = (sides M (interface3 s)).ncard := by
  induction hr with
  | zero => exact ⟨h, rfl, rfl, rfl⟩
  | @step n M M1 M2 hrun _ ih =>
    have hreq : ∀ r ∈ markedRequests len edges (isInterfaceEdge s) M M.cells [], OnEdge ℝ M r ∧ r.edge ≠ none ∧
        ∀ a b, r.edge = some (a, b) → isInterfaceEdge s a b = false := by
      intro r hr
      obtain ⟨c, hc, e, he, hi, rfl⟩ := mem_markedRequests hr
      haveI : Nontrivial (Fin (3 + 1)) := Fin.nontrivial_iff_two_le.2 (by omega)
      obtain ⟨i, j, h1, h2, -⟩ := LongestEdge.refinementEdge_longest len hsym hpos (fun i => M.pos (c i)) hedges
      rw [he] at h1
      obtain rfl : e = (i, j) := by simpa using h1
      refine ⟨C187_marked hc (hedges.1 _ h2), by simp [refineMarked], fun a b hab => ?_⟩
      simp only [refineMarked, Option.some.injEq, Prod.mk.injEq] at hab
      obtain ⟨rfl, rfl⟩ := hab
      exact hi
    obtain ⟨h1, -, h2, h3, h4⟩ := adapt3 h hrun (fun r hr _ _ => (hreq r hr).1)
      (fun pre r post M1 e _ hn => absurd hn (hreq r (by rw [e]; simp)).2.1) (fun r hr => (hreq r hr).2.2)
    obtain ⟨k1, k2, k3, k4⟩ := ih h1
    exact ⟨k1, k2.trans h2, k3.trans h3, k4.trans h4⟩

end Verif.Sides
