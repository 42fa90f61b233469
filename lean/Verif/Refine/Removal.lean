import Verif.Refine.Examples

/-!
# Removal of vertices keeps a conforming mesh of the same domain
-/

namespace Verif.Refine

open Finset

variable {K V : Type*} [Field K] [LinearOrder K] [IsStrictOrderedRing K] [AddCommGroup V] [Module K V] {d : ℕ}

theorem mem_removeAt {M : Mesh V d} {v : ℕ} {N : List (Fin (d + 1) → ℕ)} {c : Fin (d + 1) → ℕ} :
    c ∈ (removeAt M v N).cells ↔ (c ∈ M.cells ∧ v ∉ verts c) ∨ c ∈ N := by
  simp only [removeAt, List.mem_append, List.mem_filter, decide_not, Bool.not_eq_true', decide_eq_false_iff_not]
  rfl

section Remove

variable {M : Mesh V d} {v : ℕ} {N : List (Fin (d + 1) → ℕ)} (hM : Conforming K M) (hN : Fills K M v N) (hv : Inner M v)

include hN hv

theorem conforming_fill : Conforming K (⟨N, M.pos⟩ : Mesh V d) := ⟨hN.nondegenerate, hN.meet hv⟩

theorem domain_removeAt : domain K (removeAt M v N) = domain K M := by
  ext x
  constructor
  · rintro ⟨c, hc, hx⟩
    rcases mem_removeAt.1 hc with ⟨hc, -⟩ | hc
    · exact ⟨c, hc, hx⟩
    · obtain ⟨c', hc', -, hx'⟩ := (hN.covers hv x).1 ⟨c, hc, hx⟩
      exact ⟨c', hc', hx'⟩
  · rintro ⟨c, hc, hx⟩
    by_cases h : v ∈ verts c
    · obtain ⟨n, hn, hx'⟩ := (hN.covers hv x).2 ⟨c, hc, mem_verts.1 h, hx⟩
      exact ⟨n, mem_removeAt.2 (Or.inr hn), hx'⟩
    · exact ⟨c, mem_removeAt.2 (Or.inl ⟨hc, h⟩), hx⟩

include hM

theorem unique_mixed {n c : Fin (d + 1) → ℕ} (hn : n ∈ N) (hc : c ∈ M.cells) (hvc : v ∉ verts c) {w w' : ℕ → K} (hw : IsWeight (verts n) w)
    (hw' : IsWeight (verts c) w') (h : ∑ u ∈ verts n, w u • M.pos u = ∑ u ∈ verts c, w' u • M.pos u) : w = w' := by
  obtain ⟨s, hs, hvs, hx⟩ := (hN.covers hv _).1 ⟨n, hn, (hull_iff _ _ _).2 ⟨w, hw, rfl⟩⟩
  obtain ⟨ws, hws, hwsx⟩ := (hull_iff _ _ _).1 hx
  have e := hM.unique s hs c hc ws w' hws hw' (hwsx.trans h)
  subst e
  obtain ⟨n', hn', hsub⟩ := hN.facets hv s hs hvs
  have hsub' : verts s \ {v} ⊆ verts n' := hsub
  have hoff : ∀ u, u ∉ verts s \ {v} → ws u = 0 := by
    intro u hu
    rw [Finset.mem_sdiff, not_and_or, not_not, Finset.mem_singleton] at hu
    rcases hu with hu | rfl
    · exact hws.off u hu
    · exact hw'.off u hvc
  have hsum : ∑ u ∈ verts s \ {v}, ws u = 1 := by
    rw [← hws.sum]
    exact Finset.sum_subset Finset.sdiff_subset fun u _ hu => hoff u hu
  have hpt : ∑ u ∈ verts s \ {v}, ws u • M.pos u = ∑ u ∈ verts s, ws u • M.pos u :=
    Finset.sum_subset Finset.sdiff_subset fun u _ hu => by rw [hoff u hu, zero_smul]
  have hwn : IsWeight (verts n') ws := by
    refine ⟨hws.nonneg, fun u hu => hoff u fun h => hu (hsub' h), ?_⟩
    rw [← hsum]
    exact (Finset.sum_subset hsub' fun u _ hu => hoff u hu).symm
  have hpn : ∑ u ∈ verts n', ws u • M.pos u = ∑ u ∈ verts n, w u • M.pos u := by
    rw [← hwsx, ← hpt]
    exact (Finset.sum_subset hsub' fun u _ hu => by rw [hoff u hu, zero_smul]).symm
  exact (conforming_fill hN hv).unique n hn n' hn' w ws hw hwn hpn.symm

theorem conforming_removeAt : Conforming K (removeAt M v N) := by
  refine conforming_of_unique ?_ ?_
  · intro c hc
    rcases mem_removeAt.1 hc with ⟨hc, -⟩ | hc
    · exact hM.inj c hc
    · exact (conforming_fill hN hv).inj c hc
  · intro c hc c' hc' w w' hw hw' h
    rcases mem_removeAt.1 hc with ⟨hc, hvc⟩ | hc <;> rcases mem_removeAt.1 hc' with ⟨hc', hvc'⟩ | hc'
    · exact hM.unique c hc c' hc' w w' hw hw' h
    · exact (unique_mixed hM hN hv hc' hc hvc hw' hw h.symm).symm
    · exact unique_mixed hM hN hv hc hc' hvc' hw hw' h
    · exact (conforming_fill hN hv).unique c hc c' hc' w w' hw hw' h

omit hM [IsStrictOrderedRing K] in
theorem vertices_removeAt {u : ℕ} (hu : u ∈ vertices M) (huv : u ≠ v) : u ∈ vertices (removeAt M v N) := by
  obtain ⟨c, hc, i, rfl⟩ := hu
  by_cases h : v ∈ verts c
  · obtain ⟨n, hn, hsub⟩ := hN.facets hv c hc (mem_verts.1 h)
    have : c i ∈ verts n := hsub (by simp [huv])
    obtain ⟨j, hj⟩ := mem_verts.1 this
    exact ⟨n, mem_removeAt.2 (Or.inr hn), j, hj⟩
  · exact ⟨c, mem_removeAt.2 (Or.inl ⟨hc, h⟩), i, rfl⟩

end Remove

omit [IsStrictOrderedRing K] in
theorem gone_removeAt {M : Mesh V d} {v : ℕ} {N : List (Fin (d + 1) → ℕ)} (hN : Fills K M v N) : v ∉ vertices (removeAt M v N) := by
  rintro ⟨c, hc, i, hi⟩
  rcases mem_removeAt.1 hc with ⟨-, h⟩ | hc
  · exact h (mem_verts.2 ⟨i, hi⟩)
  · exact (hN.link c hc i).1 hi

/-- **C189** Coarsening: if none of the removed vertices is on the boundary when its turn comes, the mesh stays conforming and covers the same domain; exactly the
removed vertices are gone, and the others were not moved. -/
theorem C189_conforming {M M' : Mesh V d} {vs : List ℕ} (hM : Conforming K M) (hrun : Removals K M vs M')
    (hin : ∀ pre v post M1, vs = pre ++ v :: post → Removals K M pre M1 → Inner M1 v) :
    Conforming K M' ∧ domain K M' = domain K M ∧ (∀ v ∈ vertices M, v ∉ vs → v ∈ vertices M') ∧ (∀ v ∈ vertices M', v ∈ vertices M ∧ v ∉ vs) ∧
      M'.pos = M.pos := by
  induction hrun with
  | nil => exact ⟨hM, rfl, fun v hv _ => hv, fun v hv => ⟨hv, by simp⟩, rfl⟩
  | @cons M M' v vs N hN _ ih =>
    have hv : Inner M v := hin [] v vs M rfl Removals.nil
    obtain ⟨h1, h2, h3, h4, h5⟩ := ih (conforming_removeAt hM hN hv)
      fun pre u post M1 h hr => hin (v :: pre) u post M1 (by rw [h]; rfl) (Removals.cons hN hr)
    refine ⟨h1, h2.trans (domain_removeAt hN hv), fun u hu hne => ?_, fun u hu => ?_, h5⟩
    · rw [List.mem_cons, not_or] at hne
      exact h3 u (vertices_removeAt hN hv hu hne.1) hne.2
    · obtain ⟨g1, g2⟩ := h4 u hu
      refine ⟨?_, ?_⟩
      · obtain ⟨c, hc, i, rfl⟩ := g1
        rcases mem_removeAt.1 hc with ⟨hc, -⟩ | hc
        · exact ⟨c, hc, i, rfl⟩
        · obtain ⟨-, c', hc', -, j, hj⟩ := hN.link c hc i
          exact ⟨c', hc', j, hj⟩
      · rw [List.mem_cons, not_or]
        refine ⟨?_, g2⟩
        rintro rfl
        exact gone_removeAt hN g1

/-- Any number of calls of `adapt()`, each with requests made on the mesh of that time and removals of vertices that are not on the boundary. -/
inductive Adaptations (K : Type*) [Field K] [LinearOrder K] [Module K V] : Mesh V d → Mesh V d → Prop
  | refl {M} : Adaptations K M M
  | adapt {M M1 M2 rs vs} : Adaptations K M M1 → Adapt K M1 rs vs M2 → (∀ r ∈ rs, ∀ e, r.edge = some e → OnEdge K M1 r) →
      (∀ pre r post M', rs = pre ++ r :: post → Run K M1 pre M' → r.edge = none → InElement K M' r.point) →
      (∀ pre v post M' M'', vs = pre ++ v :: post → Run K M1 rs M' → Removals K M' pre M'' → Inner M'' v) → Adaptations K M M2

/-- **C189** Any sequence of adaptations keeps a conforming mesh of the same domain. -/
theorem C189_adapt (hd : 0 < d) {M M' : Mesh V d} (hM : Conforming K M) (h : Adaptations K M M') : Conforming K M' ∧ domain K M' = domain K M := by
  induction h with
  | refl => exact ⟨hM, rfl⟩
  | adapt _ hrun hedge hcell hin ih =>
    obtain ⟨M3, hr, hs⟩ := hrun
    obtain ⟨g1, g2, -⟩ := C187_conforming hd ih.1 hr hedge hcell
    obtain ⟨k1, k2, -⟩ := C189_conforming g1 hs fun pre v post M1 h hr' => hin pre v post M3 M1 h hr hr'
    exact ⟨k1, k2.trans (g2.trans ih.2)⟩

/-! ## Boundary -/

/-- The triangle with the midpoint of one edge inserted. -/
def halved : Mesh (Fin 2 → ℚ) 2 := insertAt triangle {0, 1} 3 ((1 / 2 : ℚ) • triangle.pos 0 + (1 - (1 / 2 : ℚ)) • triangle.pos 1)

theorem cells_halved : halved.cells = [![3, 1, 2], ![0, 3, 2]] := by decide

theorem conforming_halved : Conforming ℚ halved := by
  refine (C187_conforming (by decide) conforming_triangle (edge_triangle (1 / 2)) ?_ ?_).1
  · intro r hr e he
    rw [List.mem_singleton] at hr
    subst hr
    exact ⟨![0, 1, 2], by simp [triangle], 0, 1, by decide, 1 / 2, by norm_num, by norm_num, rfl⟩
  · intro pre r post M1 h _ hr
    have : r ∈ [refineEdge triangle 0 1 (1 / 2 : ℚ)] := by rw [h]; simp
    rw [List.mem_singleton] at this
    subst this
    simp [refineEdge] at hr

/-- **C190** The claim for all vertices is false: removing a corner of the domain with `removeVertex` cuts it off. -/
theorem C190_corner_false : ¬ ∀ (M M' : Mesh (Fin 2 → ℚ) 2) (v : ℕ), Conforming ℚ M → v ∈ vertices M → Removals ℚ M [v] M' →
    domain ℚ M' = domain ℚ M := by
  intro h
  have hf : Fills ℚ halved 1 [] := by
    refine ⟨by simp, by simp, by simp, ?_, ?_⟩
    all_goals
      intro hI
      exfalso
      obtain ⟨c', hc', h1, h2⟩ := hI ![3, 1, 2] (by rw [cells_halved]; simp) ⟨1, rfl⟩ 0 (by decide)
      rw [cells_halved] at hc'
      simp only [List.mem_cons, List.not_mem_nil, or_false] at hc'
      rcases hc' with rfl | rfl
      · exact h2 0 rfl
      · revert h1
        decide
  have := h halved _ 1 conforming_halved ⟨![3, 1, 2], by rw [cells_halved]; simp, 1, rfl⟩ (Removals.cons hf Removals.nil)
  have hp : (![1, 0] : Fin 2 → ℚ) ∈ domain ℚ halved := by
    refine ⟨![3, 1, 2], by rw [cells_halved]; simp, subset_convexHull _ _ ⟨1, ?_⟩⟩
    simp [halved, insertAt, triangle]
  rw [← this] at hp
  obtain ⟨c, hc, hx⟩ := hp
  rcases mem_removeAt.1 hc with ⟨hc, hn⟩ | hc
  · rw [cells_halved] at hc
    simp only [List.mem_cons, List.not_mem_nil, or_false] at hc
    rcases hc with rfl | rfl
    · exact hn (by decide)
    · have hs : convexHull ℚ (Set.range fun i => (removeAt halved 1 []).pos ((![0, 3, 2] : Fin 3 → ℕ) i)) ⊆ {p : Fin 2 → ℚ | p 0 ≤ 1 / 2} := by
        refine convexHull_min ?_ ?_
        · rintro _ ⟨i, rfl⟩
          fin_cases i <;> simp [removeAt, halved, insertAt, triangle, Function.update] <;> norm_num
        · intro p hp q hq a b ha hb hab
          simp only [Set.mem_ofPred_eq, Pi.add_apply, Pi.smul_apply, smul_eq_mul] at hp hq ⊢
          nlinarith
      have := hs hx
      norm_num at this
  · simp at hc

/-! ## Example -/

theorem cells_centered : centered.cells = [![3, 1, 2], ![0, 3, 2], ![0, 1, 3]] := by decide

/-- The vertex inserted at `(1/4, 1/4)` is removed again: it is an inner vertex, and the old triangle fills the hole. -/
example : Conforming ℚ centered ∧ Inner centered 3 ∧ Fills ℚ centered 3 [![0, 1, 2]] ∧ domain ℚ (removeAt centered 3 [![0, 1, 2]]) = domain ℚ centered := by
  have hI : Inner centered 3 := by
    unfold Inner
    rw [cells_centered]
    decide
  have hpos : ∀ i : Fin 3, centered.pos ((![0, 1, 2] : Fin 3 → ℕ) i) = triangle.pos ((![0, 1, 2] : Fin 3 → ℕ) i) := by
    intro i
    fin_cases i <;> simp [centered, insertAt, Function.update]
  have hh : hull ℚ centered ![0, 1, 2] = hull ℚ triangle ![0, 1, 2] := by
    unfold hull
    simp only [hpos]
  have hF : Fills ℚ centered 3 [![0, 1, 2]] := by
    refine ⟨?_, ?_, ?_, ?_, ?_⟩
    · unfold Link
      rw [cells_centered]
      decide
    · intro n hn
      rw [List.mem_singleton] at hn
      subst hn
      simp only [hpos]
      exact conforming_triangle.nondegenerate _ (by simp [triangle])
    · intro _ n hn n' hn'
      rw [List.mem_singleton] at hn hn'
      subst hn hn'
      rw [Set.inter_self, Set.inter_self, ← Set.range_comp]
      exact subset_rfl
    · intro _ x
      have h1 : (∃ n ∈ [(![0, 1, 2] : Fin 3 → ℕ)], x ∈ hull ℚ centered n) ↔ x ∈ domain ℚ triangle := by
        simp only [List.mem_singleton, exists_eq_left, hh, domain, triangle, Set.mem_ofPred_eq]
        rfl
      rw [h1, ← conforming_centered.2]
      refine exists_congr fun c => and_congr_right fun hc => ?_
      have : ∃ i, c i = 3 := by
        rw [cells_centered] at hc
        simp only [List.mem_cons, List.not_mem_nil, or_false] at hc
        rcases hc with rfl | rfl | rfl
        · exact ⟨0, rfl⟩
        · exact ⟨1, rfl⟩
        · exact ⟨2, rfl⟩
      exact (and_iff_right this).symm
    · intro _
      rw [cells_centered]
      decide
  exact ⟨conforming_centered.1, hI, hF, domain_removeAt hF hI⟩

end Verif.Refine
