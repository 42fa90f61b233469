import Verif.MoveGeo.Space

/-!
# Refinements and movements in three dimensions
-/

namespace Verif.MoveGeo

open Verif.Refine Finset

/-! ## Specification -/

/-- The mesh is conforming, all elements have positive volume, and no element is listed twice. -/
structure Proper (K : Type*) [Field K] [LinearOrder K] [IsStrictOrderedRing K] {d : ℕ} (M : Mesh (Fin d → K) d) : Prop where
  conforming : Conforming K M
  positive : Positive M
  once : Once M

/-- What a program does with a grid in three dimensions: it calls `adapt()` with requests made on the mesh of that time (as in C187; there are no removals in three
dimensions), and it moves the interface or all vertices by shifts which are zero on the boundary and for which `ensureInterfaceMovement` or `ensureVertexMovement` did
not throw. -/
inductive History {K : Type} [Field K] [LinearOrder K] [IsStrictOrderedRing K] (M : Mesh (Fin 3 → K) 3) : Mesh (Fin 3 → K) 3 → Prop
  | start : History M M
  | adapt {M1 M2 rs} : History M M1 → Run K M1 rs M2 → (∀ r ∈ rs, ∀ e, r.edge = some e → OnEdge K M1 r) →
      (∀ pre r post M', rs = pre ++ r :: post → Run K M1 pre M' → r.edge = none → InElement K M' r.point) → History M M2
  | moveInterface {M1} (g : Movement.Grid (Fin 3 → K) K) (shifts : List (Fin 3 → K)) (s : Movement.State (Fin 3 → K)) (pos : ℕ → Fin 3 → K) : History M M1 →
      Describes g M1 → s.pos = M1.pos → Movement.Fits g.iverts g.iindex shifts →
      (∀ v ∈ g.iverts, v ∈ vertices M1 → ¬ Inner M1 v → shifts[g.iindex v]? = some 0) →
      (Movement.ensureInterfaceMovement g shifts s).1 ≠ .thrown → Movement.moveInterface g shifts s.pos = some pos → History M { M1 with pos := pos }
  | moveVertices {M1} (g : Movement.Grid (Fin 3 → K) K) (shifts : List (Fin 3 → K)) (s : Movement.State (Fin 3 → K)) (pos : ℕ → Fin 3 → K) : History M M1 →
      Describes g M1 → s.pos = M1.pos → Movement.Fits g.verts g.index shifts →
      (∀ v ∈ g.verts, v ∈ vertices M1 → ¬ Inner M1 v → shifts[g.index v]? = some 0) →
      (Movement.ensureVertexMovement g shifts s).1 ≠ .thrown → Movement.moveVertices g shifts s.pos = some pos → History M { M1 with pos := pos }

/-! ## No element is listed twice after an insertion -/

section
variable {K V : Type*} [Field K] [LinearOrder K] [IsStrictOrderedRing K] [AddCommGroup V] [Module K V] {d : ℕ}

theorem range_verts {c c' : Fin (d + 1) → ℕ} : Set.range c ≠ Set.range c' ↔ verts c ≠ verts c' := by
  refine not_congr ⟨fun h => ?_, fun h => ?_⟩
  · ext v
    rw [mem_verts, mem_verts]
    exact Set.ext_iff.1 h v
  · ext v
    have := Finset.ext_iff.1 h v
    rwa [mem_verts, mem_verts] at this

theorem distinct_insertAt {M : Mesh V d} {F : Finset ℕ} {m : ℕ} {x : V} (hm : Fresh M m) (hinj : ∀ c ∈ M.cells, Function.Injective c)
    (hd : M.cells.Pairwise fun c c' => verts c ≠ verts c') : (insertAt M F m x).cells.Pairwise fun c c' => verts c ≠ verts c' := by
  have hmv : ∀ c ∈ M.cells, m ∉ verts c := fun c hc h => by
    obtain ⟨i, hi⟩ := mem_verts.1 h
    exact hm c hc i hi
  have key : ∀ cs : List (Fin (d + 1) → ℕ), (∀ c ∈ cs, c ∈ M.cells) → (cs.Pairwise fun c c' => verts c ≠ verts c') →
      (cs.flatMap (splitCell F m)).Pairwise fun c c' => verts c ≠ verts c' := by
    intro cs hcs hd
    rw [List.pairwise_flatMap]
    constructor
    · intro c hc
      unfold splitCell
      split
      · rename_i hF
        rw [List.pairwise_map]
        refine List.Pairwise.filter _ ?_
        refine (List.nodup_finRange (d + 1)).imp ?_
        intro i j hij heq
        rw [verts_update (hinj c (hcs c hc)), verts_update (hinj c (hcs c hc))] at heq
        have : c i ∈ insert m ((verts c).erase (c j)) := by
          refine Finset.mem_insert_of_mem (Finset.mem_erase.2 ⟨fun h => hij (hinj c (hcs c hc) h), mem_verts.2 ⟨i, rfl⟩⟩)
        rw [← heq, Finset.mem_insert, Finset.mem_erase] at this
        rcases this with h | h
        · exact hm c (hcs c hc) i h
        · exact h.1 rfl
      · simp
    · refine List.Pairwise.imp_of_mem ?_ hd
      intro c c' hc hc' hne y hy y' hy' heq
      have hc1 := hcs c hc
      have hc1' := hcs c' hc'
      unfold splitCell at hy hy'
      split at hy <;> split at hy'
      · rename_i hF hF'
        simp only [List.mem_map, List.mem_filter, decide_eq_true_eq] at hy hy'
        obtain ⟨i, ⟨-, hi⟩, rfl⟩ := hy
        obtain ⟨j, ⟨-, hj⟩, rfl⟩ := hy'
        rw [verts_update (hinj c hc1), verts_update (hinj c' hc1')] at heq
        have heq' : (verts c).erase (c i) = (verts c').erase (c' j) := by
          have h1 : m ∉ (verts c).erase (c i) := fun h => hmv c hc1 (Finset.mem_of_mem_erase h)
          have h2 : m ∉ (verts c').erase (c' j) := fun h => hmv c' hc1' (Finset.mem_of_mem_erase h)
          rw [← Finset.erase_insert h1, heq, Finset.erase_insert h2]
        have hij : c i = c' j := by
          by_contra h
          have : c i ∈ (verts c').erase (c' j) := Finset.mem_erase.2 ⟨h, hF' hi⟩
          rw [← heq'] at this
          exact (Finset.mem_erase.1 this).1 rfl
        refine hne ?_
        rw [← Finset.insert_erase (mem_verts.2 ⟨i, rfl⟩ : c i ∈ verts c), heq', hij, Finset.insert_erase (mem_verts.2 ⟨j, rfl⟩)]
      · simp only [List.mem_map, List.mem_filter, decide_eq_true_eq, List.mem_singleton] at hy hy'
        obtain ⟨i, -, rfl⟩ := hy
        subst hy'
        rw [verts_update (hinj c hc1)] at heq
        exact hmv _ hc1' (heq ▸ Finset.mem_insert_self _ _)
      · simp only [List.mem_map, List.mem_filter, decide_eq_true_eq, List.mem_singleton] at hy hy'
        obtain ⟨i, -, rfl⟩ := hy'
        subst hy
        rw [verts_update (hinj c' hc1')] at heq
        exact hmv _ hc1 (heq ▸ Finset.mem_insert_self _ _)
      · simp only [List.mem_singleton] at hy hy'
        subst hy hy'
        exact hne heq
  exact key M.cells (fun _ h => h) hd

theorem injective_insertAt {M : Mesh V d} {F : Finset ℕ} {m : ℕ} {x : V} (hm : Fresh M m) (hinj : ∀ c ∈ M.cells, Function.Injective c) :
    ∀ c ∈ (insertAt M F m x).cells, Function.Injective c := by
  intro c' hc'
  obtain ⟨c, hc, ⟨-, rfl⟩ | ⟨-, i, -, rfl⟩⟩ := mem_insertAt.1 hc'
  · exact hinj _ hc
  · intro a b hab
    by_cases ha : a = i <;> by_cases hb : b = i
    · rw [ha, hb]
    · rw [ha, Function.update_self, Function.update_of_ne hb] at hab
      exact absurd hab.symm (hm c hc b)
    · rw [hb, Function.update_self, Function.update_of_ne ha] at hab
      exact absurd hab (hm c hc a)
    · rw [Function.update_of_ne ha, Function.update_of_ne hb] at hab
      exact hinj c hc hab

theorem once_step {M M' : Mesh V d} {r : Req V} (h : Step (K := K) M r M') (hinj : ∀ c ∈ M.cells, Function.Injective c)
    (hd : M.cells.Pairwise fun c c' => verts c ≠ verts c') :
    (∀ c ∈ M'.cells, Function.Injective c) ∧ M'.cells.Pairwise fun c c' => verts c ≠ verts c' := by
  cases h with
  | dropped => exact ⟨hinj, hd⟩
  | edge _ _ _ _ hm => exact ⟨injective_insertAt hm hinj, distinct_insertAt hm hinj hd⟩
  | cell _ _ hm => exact ⟨injective_insertAt hm hinj, distinct_insertAt hm hinj hd⟩
  | @outside x m c i hc _ _ hm =>
    refine ⟨fun c' hc' => ?_, List.pairwise_cons.2 ⟨fun c' hc' he => ?_, hd⟩⟩
    · rcases List.mem_cons.1 hc' with rfl | hc'
      · refine Function.Injective.comp ?_ (Equiv.injective _)
        intro a b hab
        by_cases ha : a = i <;> by_cases hb : b = i
        · rw [ha, hb]
        · rw [ha, Function.update_self, Function.update_of_ne hb] at hab
          exact absurd hab.symm (hm c hc b)
        · rw [hb, Function.update_self, Function.update_of_ne ha] at hab
          exact absurd hab (hm c hc a)
        · rw [Function.update_of_ne ha, Function.update_of_ne hb] at hab
          exact hinj c hc hab
      · exact hinj c' hc'
    · have : m ∈ verts (Function.update c i m ∘ Equiv.swap 0 (Fin.last d)) :=
        mem_verts.2 ⟨Equiv.swap 0 (Fin.last d) i, by simp⟩
      rw [he] at this
      obtain ⟨j, hj⟩ := mem_verts.1 this
      exact hm c' hc' j hj

theorem once_run {M M' : Mesh V d} {rs : List (Req V)} (h : Run K M rs M') : (∀ c ∈ M.cells, Function.Injective c) →
    (M.cells.Pairwise fun c c' => verts c ≠ verts c') → M'.cells.Pairwise fun c c' => verts c ≠ verts c' := by
  induction h with
  | nil => exact fun _ h => h
  | cons hs _ ih =>
    intro h1 h2
    obtain ⟨a, b⟩ := once_step hs h1 h2
    exact ih a b

end

/-! ## C201 -/

section
variable {K : Type} [Field K] [LinearOrder K] [IsStrictOrderedRing K]

/-- A checked movement. -/
theorem Proper.moved {d : ℕ} {M : Mesh (Fin d → K) d} {pos : ℕ → Fin d → K} (h : Proper K M) (hp : Positive { M with pos := pos })
    (hb : ∀ v ∈ vertices M, ¬ Inner M v → pos v = M.pos v) :
    Proper K { M with pos := pos } ∧ domain K { M with pos := pos } = domain K M ∧ totalVolume { M with pos := pos } = totalVolume M := by
  obtain ⟨h1, h2⟩ := result h.conforming h.once h.positive hp hb
  refine ⟨⟨h1, hp, h.once⟩, h2, ?_⟩
  have e : MoveGeo.moved M (fun v => pos v - M.pos v) = { M with pos := pos } := by
    unfold MoveGeo.moved
    simp only [add_sub_cancel]
  rw [← e] at hp ⊢
  exact C191_area h.conforming h.positive h.once (fun v hv hi => by rw [hb v hv hi, sub_self]) hp

/-- Refinement. -/
theorem Proper.refined {d : ℕ} (hd : 0 < d) {M M' : Mesh (Fin d → K) d} {rs : List (Req (Fin d → K))} (h : Proper K M) (hrun : Run K M rs M')
    (hedge : ∀ r ∈ rs, ∀ e, r.edge = some e → OnEdge K M r)
    (hcell : ∀ pre r post M1, rs = pre ++ r :: post → Run K M pre M1 → r.edge = none → InElement K M1 r.point) :
    Proper K M' ∧ domain K M' = domain K M ∧ totalVolume M' = totalVolume M ∧ ∀ v ∈ vertices M, v ∈ vertices M' := by
  obtain ⟨h1, h2, h3⟩ := C187_conforming hd h.conforming hrun hedge hcell
  obtain ⟨h4, h5⟩ := C187_volume hd h.conforming hrun hedge hcell h.positive
  refine ⟨⟨h1, h4, ?_⟩, h2, h5, fun v hv => (h3 v hv).1⟩
  refine List.Pairwise.imp range_verts.2 (once_run hrun h.conforming.inj ?_)
  exact List.Pairwise.imp range_verts.1 h.once

/-- **C201** After any number of refinements and movements in three dimensions the grid is a conforming mesh of the same domain with the same volume; all elements
have positive volume, no element occurs twice, and no vertex is lost. -/
theorem C201_space {M M' : Mesh (Fin 3 → K) 3} (hM : Proper K M) (h : History M M') :
    Proper K M' ∧ domain K M' = domain K M ∧ totalVolume M' = totalVolume M ∧ ∀ v ∈ vertices M, v ∈ vertices M' := by
  induction h with
  | start => exact ⟨hM, rfl, rfl, fun _ h => h⟩
  | adapt _ hrun hedge hcell ih =>
    obtain ⟨h1, h2, h3, h4⟩ := ih
    obtain ⟨g1, g2, g3, g4⟩ := h1.refined (by norm_num) hrun hedge hcell
    exact ⟨g1, g2.trans h2, g3.trans h3, fun v hv => g4 v (h4 v hv)⟩
  | @moveInterface M1 g shifts s pos _ hg hpos hfit hb hen hm ih =>
    obtain ⟨h1, h2, h3, h4⟩ := ih
    have hpos' : Positive { M1 with pos := pos } := hg.positive (by
      intro c hc hv
      have h0 : ∀ c ∈ g.cells, ¬ g.vol s.pos c ≤ 0 := by
        intro c hc hv
        rw [Movement.C31_invalid_before g shifts s ⟨c, hc, hv⟩] at hen
        simp at hen
      rw [Movement.C112_3d g hg.dim shifts s pos h0 hm ⟨c, hc, hv⟩] at hen
      simp at hen)
    obtain ⟨g1, g2, g3⟩ := h1.moved hpos' (interface_fixed shifts s hpos hfit hb pos hm)
    exact ⟨g1, g2.trans h2, g3.trans h3, h4⟩
  | @moveVertices M1 g shifts s pos _ hg hpos hfit hb hen hm ih =>
    obtain ⟨h1, h2, h3, h4⟩ := ih
    have hpos' : Positive { M1 with pos := pos } := hg.positive (by
      intro c hc hv
      rw [(Movement.C32_3d g hg.dim shifts s hfit pos hm).1 ⟨c, hc, hv⟩] at hen
      simp at hen)
    obtain ⟨g1, g2, g3⟩ := h1.moved hpos' (vertices_fixed shifts s hpos hfit hb pos hm)
    exact ⟨g1, g2.trans h2, g3.trans h3, h4⟩

end

/-! ## Example -/

/-- A vertex is inserted into the tetrahedron and then moved. -/
example : ∃ M', History tetra M' ∧ M'.pos 4 = ![1 / 2, 1 / 5, 1 / 5] ∧ Proper ℚ M' ∧ domain ℚ M' = domain ℚ tetra ∧ totalVolume M' = 1 := by
  have hT : Proper ℚ tetra := ⟨conforming_tetra, by
    intro c hc
    simp only [tetra, List.mem_singleton] at hc
    subst hc
    rw [volume_tetra]
    norm_num, by simp [Once, tetra]⟩
  have h1 : History tetra inner := by
    refine History.adapt History.start run_inner ?_ ?_
    · intro r hr e he
      rw [List.mem_singleton] at hr
      subst hr
      simp [insertVertexInCell] at he
    · intro pre r post M1 h hr _
      cases pre with
      | nil =>
        cases hr
        simp only [List.nil_append, List.cons.injEq] at h
        rw [← h.1]
        exact inElement_tetra
      | cons a pre =>
        simp only [List.cons_append, List.cons.injEq] at h
        exact absurd h.2 (by simp)
  obtain ⟨pos, hm, hp, hret, -⟩ := moved_inner
  have h2 := History.moveInterface innerGrid [![3 / 10, 0, 0]] ⟨inner.pos, fun _ => none, [], []⟩ pos h1 describes_inner rfl ⟨by decide, by decide⟩ (by
    intro v hv _ hi
    simp only [innerGrid, List.mem_singleton] at hv
    subst hv
    exact absurd inner_four hi) (by rw [hret]; simp) hm
  obtain ⟨a, b, c, -⟩ := C201_space hT h2
  refine ⟨_, h2, hp, a, b, c.trans ?_⟩
  simp only [totalVolume, tetra, List.map_cons, List.map_nil, List.sum_cons, List.sum_nil, add_zero]
  exact volume_tetra

end Verif.MoveGeo
