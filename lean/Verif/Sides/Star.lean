import Verif.MoveGeo.History

/-!
# The elements around an inner vertex

The elements around a vertex that is not on the boundary form one cycle (in 2D): one comes from each to each other through facets that contain the vertex. The argument
is the same in every dimension: a set of elements that is closed under going through the facets at the vertex covers all points near the vertex, because the vertex can be
moved a little in every direction without changing the points that are covered (C191).
-/

namespace Verif.Sides

set_option linter.unusedSectionVars false

open Finset Verif.Refine Verif.MoveGeo

variable {K : Type} [Field K] [LinearOrder K] [IsStrictOrderedRing K] {d : ℕ}

theorem range_eq_verts {c c' : Fin (d + 1) → ℕ} (h : Set.range c = Set.range c') : verts c = verts c' := by
  ext v
  rw [mem_verts, mem_verts]
  exact Set.ext_iff.1 h v

theorem verts_eq_range {c c' : Fin (d + 1) → ℕ} (h : verts c = verts c') : Set.range c = Set.range c' := by
  ext v
  have := Finset.ext_iff.1 h v
  rwa [mem_verts, mem_verts] at this

theorem card_verts {c : Fin (d + 1) → ℕ} (hc : Function.Injective c) : (verts c).card = d + 1 := by
  rw [verts, Finset.card_image_of_injective _ hc, Finset.card_univ, Fintype.card_fin]

/-- An element is listed once. -/
theorem eq_of_verts {M : Mesh (Fin d → K) d} (h1 : Once M) {c c' : Fin (d + 1) → ℕ} (hc : c ∈ M.cells) (hc' : c' ∈ M.cells) (h : verts c = verts c') : c = c' := by
  by_contra hne
  have : Std.Symm fun c c' : Fin (d + 1) → ℕ => Set.range c ≠ Set.range c' := ⟨fun _ _ h => h.symm⟩
  exact h1.forall hc hc' hne (verts_eq_range h)

/-- Two elements at the vertex `v` with a common facet that contains `v`. -/
def Around (M : Mesh (Fin d → K) d) (v : ℕ) (c c' : Fin (d + 1) → ℕ) : Prop :=
  c ∈ M.cells ∧ c' ∈ M.cells ∧ ∃ F : Finset ℕ, F.card = d ∧ v ∈ F ∧ F ⊆ verts c ∧ F ⊆ verts c'

/-- The mesh that consists of the elements with a property. -/
noncomputable def part (M : Mesh (Fin d → K) d) (P : (Fin (d + 1) → ℕ) → Prop) : Mesh (Fin d → K) d :=
  by classical exact { M with cells := M.cells.filter fun c => decide (P c) }

theorem mem_part {M : Mesh (Fin d → K) d} {P : (Fin (d + 1) → ℕ) → Prop} {c : Fin (d + 1) → ℕ} : c ∈ (part M P).cells ↔ c ∈ M.cells ∧ P c := by
  simp [part, List.mem_filter]

theorem pos_part (M : Mesh (Fin d → K) d) (P : (Fin (d + 1) → ℕ) → Prop) : (part M P).pos = M.pos := rfl

theorem proper_part {M : Mesh (Fin d → K) d} (h : Proper K M) (P : (Fin (d + 1) → ℕ) → Prop) : Proper K (part M P) := by
  refine ⟨⟨fun c hc => h.conforming.nondegenerate c (mem_part.1 hc).1, fun c hc c' hc' => h.conforming.meet c (mem_part.1 hc).1 c' (mem_part.1 hc').1⟩,
    fun c hc => h.positive c (mem_part.1 hc).1, ?_⟩
  exact List.Pairwise.filter _ h.once

/-- A mesh covers all points near an inner vertex. -/
theorem covers_near {M : Mesh (Fin d → K) d} (h : Proper K M) {v : ℕ} (hin : Inner M v) {c : Fin (d + 1) → ℕ} (hc : c ∈ M.cells) (hv : v ∈ verts c) (u : Fin d → K) :
    ∃ ε : K, 0 < ε ∧ ε ≤ 1 ∧ M.pos v + ε • u ∈ domain K M := by
  have hk : ∀ e : Fin (d + 1) → ℕ, ∃ k : K, e ∈ M.cells → ∀ t : K, signedVolume (fun i => Function.update M.pos v (M.pos v + t • u) (e i)) =
      signedVolume (fun i => M.pos (e i)) + t * k := by
    intro e
    by_cases he : e ∈ M.cells
    · obtain ⟨k, hk⟩ := volume_moving M.pos v u (h.conforming.inj e he)
      exact ⟨k, fun _ => hk⟩
    · exact ⟨0, fun h => absurd h he⟩
  choose k hk using hk
  obtain ⟨t, ht0, ht1, ht⟩ := small_step (M.cells.map fun e => (signedVolume (fun i => M.pos (e i)), k e)) (by
    intro a ha
    obtain ⟨e, he, rfl⟩ := List.mem_map.1 ha
    exact h.positive e he)
  refine ⟨t, ht0, ht1, ?_⟩
  have hpos : Positive { M with pos := Function.update M.pos v (M.pos v + t • u) } := by
    intro e he
    show 0 < signedVolume fun i => Function.update M.pos v (M.pos v + t • u) (e i)
    rw [hk e he]
    exact ht t ht0 le_rfl _ (List.mem_map.2 ⟨e, he, rfl⟩)
  have := (result h.conforming h.once h.positive hpos (by
    intro w _ hw
    have hne : w ≠ v := fun e => hw (e ▸ hin)
    exact Function.update_of_ne hne _ _)).2
  rw [← this]
  obtain ⟨i, hi⟩ := mem_verts.1 hv
  refine ⟨c, hc, subset_convexHull K _ ⟨i, ?_⟩⟩
  simp [hi]

theorem around_inner {M : Mesh (Fin d → K) d} (hM : Proper K M) {v : ℕ} (hin : Inner M v) (c : Fin (d + 1) → ℕ) :
    Inner (part M fun e => v ∈ verts e ∧ Relation.ReflTransGen (Around M v) c e) v := by
  rintro e he ⟨k, hk⟩ i hi
  obtain ⟨he, hve, hr⟩ := mem_part.1 he
  obtain ⟨e', he', hsub, hno⟩ := hin e he ⟨k, hk⟩ i hi
  have hvF : v ∈ verts e \ {e i} := Finset.mem_sdiff.2 ⟨hve, by simpa using fun h : v = e i => hi h.symm⟩
  refine ⟨e', mem_part.2 ⟨he', hsub hvF, hr.tail ⟨he, he', verts e \ {e i}, ?_, hvF, Finset.sdiff_subset, hsub⟩⟩, hsub, hno⟩
  rw [Finset.sdiff_singleton_eq_erase, Finset.card_erase_of_mem (mem_verts.2 ⟨i, rfl⟩), card_verts (hM.conforming.inj e he), Nat.add_sub_cancel]

/-- One comes from each element at an inner vertex to each other through facets that contain the vertex. -/
theorem star_connected {M : Mesh (Fin d → K) d} (hM : Proper K M) {v : ℕ} (hin : Inner M v) {c c' : Fin (d + 1) → ℕ} (hc : c ∈ M.cells) (hc' : c' ∈ M.cells)
    (hv : v ∈ verts c) (hv' : v ∈ verts c') : Relation.ReflTransGen (Around M v) c' c := by
  by_contra hno
  obtain ⟨m, hm⟩ := center_inside hM.positive hc
  have hcl := (closed_iff (hM.positive c hc)).1 (subset_convexHull K (Set.range fun i => M.pos (c i)) ((mem_verts.1 hv).imp fun i hi => by simp [hi]) : M.pos v ∈ _)
  obtain ⟨t, ht0, ht1, e, he, hx⟩ := covers_near (proper_part hM fun e => v ∈ verts e ∧ Relation.ReflTransGen (Around M v) c' e) (around_inner hM hin c')
    (mem_part.2 ⟨hc', hv', Relation.ReflTransGen.refl⟩) hv' (m - M.pos v)
  rw [pos_part] at hx
  obtain ⟨he, -, hr⟩ := mem_part.1 he
  have hins : M.pos v + t • (m - M.pos v) ∈ inside M c := (mem_inside hM.positive hc).2 fun i => toward_center ht0 ht1 (hcl i) (hm i)
  refine inside_of_closed hM.positive hc he hins hx ?_
  rw [Set.disjoint_left]
  intro y hy hy'
  refine disjoint_inside hM.conforming hc he (fun h => hno ?_) y hy hy'
  rw [eq_of_verts hM.once hc he (range_eq_verts h)]
  exact hr

end Verif.Sides
