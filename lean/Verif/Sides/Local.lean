import Verif.Sides.Model
import Mathlib.Topology.Instances.Matrix
import Mathlib.Analysis.Normed.Module.FiniteDimension

/-!
# Elements at a point that is not on the interface
-/

namespace Verif.Sides

open Finset Verif.Refine Verif.MoveGeo

variable {d : ℕ}

/-! ## Continuity -/

theorem continuous_volume (p : Fin (d + 1) → Fin d → ℝ) (i : Fin (d + 1)) : Continuous fun x => signedVolume (Function.update p i x) := by
  unfold signedVolume
  refine Continuous.matrix_det (continuous_matrix fun a b => ?_)
  simp only [Matrix.of_apply]
  have h : Continuous fun x : Fin d → ℝ => Function.update p i x a := by
    by_cases ha : a = i
    · subst ha
      simp only [Function.update_self]
      exact continuous_id
    · simpa [Function.update_of_ne ha] using continuous_const
  refine Fin.cases ?_ (fun b => ?_) b
  · simpa using continuous_const
  · simp only [Fin.cons_succ]
    exact (continuous_apply b).comp h

theorem closed_cell (M : Mesh (Fin d → ℝ) d) (c : Fin (d + 1) → ℕ) : IsClosed (convexHull ℝ (Set.range fun i => M.pos (c i))) :=
  (Set.finite_range _).isClosed_convexHull ℝ

theorem open_inside {M : Mesh (Fin d → ℝ) d} (hp : Positive M) {c : Fin (d + 1) → ℕ} (hc : c ∈ M.cells) : IsOpen (inside M c) := by
  have : inside M c = ⋂ i, {x | 0 < signedVolume (Function.update (fun k => M.pos (c k)) i x)} := by
    ext x
    rw [mem_inside hp hc, Set.mem_iInter]
    rfl
  rw [this]
  exact isOpen_iInter_of_finite fun i => isOpen_lt continuous_const (continuous_volume _ i)

/-- The union of the elements with a property. -/
theorem closed_union (M : Mesh (Fin d → ℝ) d) (P : (Fin (d + 1) → ℕ) → Prop) : IsClosed {x | ∃ c ∈ M.cells, P c ∧ x ∈ convexHull ℝ (Set.range fun i => M.pos (c i))} := by
  have : {x | ∃ c ∈ M.cells, P c ∧ x ∈ convexHull ℝ (Set.range fun i => M.pos (c i))} =
      ⋃ c ∈ {c | c ∈ M.cells ∧ P c}, convexHull ℝ (Set.range fun i => M.pos (c i)) := by
    ext x
    simp only [Set.mem_iUnion, Set.mem_ofPred_eq, exists_prop, and_assoc]
  rw [this]
  exact (M.cells.finite_toSet.subset fun c h => h.1).isClosed_biUnion fun c _ => closed_cell M c

/-! ## Barycentric coordinates -/

/-- The vertices a point in an element is a proper combination of. -/
theorem carrier {M : Mesh (Fin d → ℝ) d} {c : Fin (d + 1) → ℕ} {x : Fin d → ℝ} (hx : x ∈ convexHull ℝ (Set.range fun i => M.pos (c i))) :
    ∃ (F : Finset ℕ) (μ : ℕ → ℝ), F ⊆ verts c ∧ Inside M.pos F x μ := by
  classical
  obtain ⟨w, hw, rfl⟩ := (hull_iff _ _ _).1 hx
  have hF : ∀ v ∈ verts c, v ∉ (verts c).filter (fun v => 0 < w v) → w v = 0 := fun v hv h => by
    rw [Finset.mem_filter, not_and] at h
    exact le_antisymm (not_lt.1 (h hv)) (hw.nonneg v)
  refine ⟨(verts c).filter fun v => 0 < w v, w, Finset.filter_subset _ _, ⟨⟨hw.nonneg, fun v hv => ?_, ?_⟩, fun v hv => (Finset.mem_filter.1 hv).2, ?_⟩⟩
  · by_cases h : v ∈ verts c
    · exact hF v h hv
    · exact hw.off v h
  · rw [← hw.sum]
    exact Finset.sum_subset (Finset.filter_subset _ _) fun v hv h => hF v hv h
  · exact Finset.sum_subset (Finset.filter_subset _ _) fun v hv h => by rw [hF v hv h, zero_smul]

theorem IsWeight.mono {S T : Finset ℕ} {w : ℕ → ℝ} (h : IsWeight S w) (hST : S ⊆ T) : IsWeight T w :=
  ⟨h.nonneg, fun v hv => h.off v fun hs => hv (hST hs), by
    rw [← h.sum]
    exact (Finset.sum_subset hST fun v _ hv => h.off v hv).symm⟩

theorem IsWeight.sum_mono {S T : Finset ℕ} {w : ℕ → ℝ} (h : IsWeight S w) (hST : S ⊆ T) (pos : ℕ → Fin d → ℝ) :
    ∑ v ∈ T, w v • pos v = ∑ v ∈ S, w v • pos v :=
  (Finset.sum_subset hST fun v _ hv => by rw [h.off v hv, zero_smul]).symm

/-- If a point is a proper combination of vertices of one element, then these vertices belong to every face that contains the point. -/
theorem carrier_subset {M : Mesh (Fin d → ℝ) d} (hM : Conforming ℝ M) {c c' : Fin (d + 1) → ℕ} (hc : c ∈ M.cells) (hc' : c' ∈ M.cells) {F G : Finset ℕ} (hF : F ⊆ verts c)
    (hG : G ⊆ verts c') {x : Fin d → ℝ} {μ : ℕ → ℝ} (hin : Inside M.pos F x μ) (hx : x ∈ convexHull ℝ (M.pos '' (G : Set ℕ))) : F ⊆ G := by
  obtain ⟨w, hw, hwx⟩ := (hull_finset _ _ _).1 hx
  have := hM.unique c hc c' hc' μ w (IsWeight.mono hin.toIsWeight hF) (IsWeight.mono hw hG) (by
    rw [IsWeight.sum_mono hin.toIsWeight hF, IsWeight.sum_mono hw hG, hwx, hin.point])
  intro v hv
  by_contra h
  have h1 := hin.strict v hv
  rw [this, hw.off v h] at h1
  exact lt_irrefl _ h1

/-- The middle of a face. -/
theorem middle (pos : ℕ → Fin d → ℝ) {F : Finset ℕ} (hF : F.Nonempty) : ∃ x μ, Inside (K := ℝ) pos F x μ := by
  classical
  have hc : (0 : ℝ) < F.card := by exact_mod_cast hF.card_pos
  refine ⟨_, fun v => if v ∈ F then 1 / F.card else 0, ⟨⟨fun v => ?_, fun v hv => if_neg hv, ?_⟩, fun v hv => ?_, rfl⟩⟩
  · split_ifs <;> positivity
  · rw [Finset.sum_congr rfl fun v hv => if_pos hv, Finset.sum_const, nsmul_eq_mul]
    field_simp
  · rw [if_pos hv]
    positivity

/-- The volume of the element with one vertex replaced by a point of the opposite facet. -/
theorem volume_facet {pos : ℕ → Fin d → ℝ} {c : Fin (d + 1) → ℕ} (hc : Function.Injective c) {F : Finset ℕ} (hF : F ⊆ verts c) {x : Fin d → ℝ} {μ : ℕ → ℝ}
    (hin : Inside pos F x μ) (i : Fin (d + 1)) : signedVolume (Function.update (fun k => pos (c k)) i x) = μ (c i) * signedVolume fun k => pos (c k) := by
  have h1 : ∑ k, μ (c k) = 1 := by
    rw [← sum_verts hc, ← (IsWeight.mono hin.toIsWeight hF).sum]
  have h2 : ∑ k, μ (c k) • pos (c k) = x := by
    rw [← sum_verts hc fun v => μ v • pos v, IsWeight.sum_mono hin.toIsWeight hF, hin.point]
  rw [← h2, volume_combination (fun k => pos (c k)) (fun k => μ (c k)) h1]

/-! ## Points in the interior of the domain -/

/-- A vertex in the interior of the domain is not on a facet of the boundary. -/
theorem inner_of_interior {M : Mesh (Fin d → ℝ) d} (hM : Proper ℝ M) {v : ℕ} (hv : M.pos v ∈ interior (domain ℝ M)) : Inner M v := by
  rintro c hc ⟨k, hk⟩ i hi
  have hinj := hM.conforming.inj c hc
  by_contra hno
  push Not at hno
  -- a point of the facet near the vertex
  have hvF : v ∈ verts c \ {c i} := Finset.mem_sdiff.2 ⟨mem_verts.2 ⟨k, hk⟩, by simpa using fun h : v = c i => hi h.symm⟩
  obtain ⟨g, μ, hg⟩ := middle M.pos ⟨v, hvF⟩
  have hline : ∀ y : Fin d → ℝ, ∀ x : Fin d → ℝ, Continuous fun t : ℝ => x + t • (y - x) := fun y x => by fun_prop
  obtain ⟨t, ht0, ht1, ht⟩ : ∃ t : ℝ, 0 < t ∧ t ≤ 1 ∧ M.pos v + t • (g - M.pos v) ∈ interior (domain ℝ M) := by
    have h0 : (fun t : ℝ => M.pos v + t • (g - M.pos v)) 0 ∈ interior (domain ℝ M) := by simpa using hv
    have := (hline g (M.pos v)).continuousAt.preimage_mem_nhds (isOpen_interior.mem_nhds h0)
    obtain ⟨ε, hε, hball⟩ := Metric.mem_nhds_iff.1 this
    refine ⟨min (ε / 2) 1, lt_min (by linarith) one_pos, min_le_right _ _, hball ?_⟩
    rw [Metric.mem_ball, Real.dist_eq, sub_zero, abs_of_pos (lt_min (by linarith) one_pos)]
    exact (min_le_left _ _).trans_lt (by linarith)
  set q := M.pos v + t • (g - M.pos v) with hq
  have hqF : Inside M.pos (verts c \ {c i}) q fun u => (if u = v then 1 - t else 0) + t * μ u := by
    refine ⟨⟨fun u => ?_, fun u hu => ?_, ?_⟩, fun u hu => ?_, ?_⟩
    · have := mul_nonneg ht0.le (hg.nonneg u)
      split_ifs <;> linarith
    · beta_reduce
      rw [if_neg (fun h : u = v => hu (h ▸ hvF)), hg.off u hu, mul_zero, add_zero]
    · rw [Finset.sum_add_distrib, Finset.sum_ite_eq' _ v, if_pos hvF, ← Finset.mul_sum, hg.sum]
      ring
    · have := mul_pos ht0 (hg.strict u hu)
      split_ifs <;> linarith
    · simp only [add_smul, ite_smul, zero_smul, mul_smul]
      rw [Finset.sum_add_distrib, Finset.sum_ite_eq' _ v, if_pos hvF, ← Finset.smul_sum, hg.point, hq]
      module
  -- the other elements do not contain it
  have hother : q ∉ {x | ∃ c' ∈ M.cells, verts c' ≠ verts c ∧ x ∈ convexHull ℝ (Set.range fun i => M.pos (c' i))} := by
    rintro ⟨c', hc', hne, hx⟩
    rw [range_image] at hx
    have hsub := carrier_subset hM.conforming hc hc' Finset.sdiff_subset (Finset.Subset.refl _) hqF hx
    obtain ⟨j, hj⟩ := hno c' hc' hsub
    refine hne (Finset.eq_of_subset_of_card_le ?_ ?_).symm
    · intro u hu
      by_cases hui : u = c i
      · exact mem_verts.2 ⟨j, by rw [hj, hui]⟩
      · exact hsub (Finset.mem_sdiff.2 ⟨hu, by simpa using hui⟩)
    · rw [card_verts hinj, card_verts (hM.conforming.inj c' hc')]
  -- points beyond the facet
  obtain ⟨m, hm⟩ := center_inside hM.positive hc
  obtain ⟨s, hs0, hs⟩ : ∃ s : ℝ, 0 < s ∧ q + (-s) • (m - q) ∈ interior (domain ℝ M) ∩
      {x | ∃ c' ∈ M.cells, verts c' ≠ verts c ∧ x ∈ convexHull ℝ (Set.range fun i => M.pos (c' i))}ᶜ := by
    have hopen := (isOpen_interior (s := domain ℝ M)).inter (closed_union M fun c' => verts c' ≠ verts c).isOpen_compl
    have h0 : (fun t : ℝ => q + t • (m - q)) 0 ∈ interior (domain ℝ M) ∩
      {x | ∃ c' ∈ M.cells, verts c' ≠ verts c ∧ x ∈ convexHull ℝ (Set.range fun i => M.pos (c' i))}ᶜ := by
      simp only [zero_smul, add_zero]
      exact ⟨ht, hother⟩
    have := (hline m q).continuousAt.preimage_mem_nhds (hopen.mem_nhds h0)
    obtain ⟨ε, hε, hball⟩ := Metric.mem_nhds_iff.1 this
    refine ⟨ε / 2, by linarith, hball (a := -(ε / 2)) ?_⟩
    rw [Metric.mem_ball, Real.dist_eq, sub_zero, abs_neg, abs_of_pos (by linarith)]
    linarith
  obtain ⟨c', hc', hx⟩ := interior_subset hs.1
  have he : verts c' = verts c := by
    by_contra hne
    exact hs.2 ⟨c', hc', hne, hx⟩
  rw [eq_of_verts hM.once hc' hc he] at hx
  have h1 := (closed_iff (hM.positive c hc)).1 hx i
  rw [volume_line, volume_facet hinj Finset.sdiff_subset hqF] at h1
  have h2 := hqF.off (c i) (by simp)
  beta_reduce at h1 h2
  rw [h2] at h1
  have := mul_pos hs0 (hm i)
  linarith

/-- The elements that contain a point which is neither on the boundary nor on the interface are on the same side. -/
theorem same_at_point {M : Mesh (Fin d → ℝ) d} (hM : Proper ℝ M) {I : Finset ℕ → Prop} {x : Fin d → ℝ} (hx : x ∈ free M I) {c c' : Fin (d + 1) → ℕ} (hc : c ∈ M.cells)
    (hc' : c' ∈ M.cells) (hxc : x ∈ convexHull ℝ (Set.range fun i => M.pos (c i))) (hxc' : x ∈ convexHull ℝ (Set.range fun i => M.pos (c' i))) : SameSide M I c' c := by
  obtain ⟨F, μ, hF, hin⟩ := carrier hxc
  have hF' : F ⊆ verts c' := carrier_subset hM.conforming hc hc' hF (Finset.Subset.refl _) hin (by rwa [← range_image])
  have hinj := hM.conforming.inj
  -- the point becomes a vertex
  obtain ⟨m, hm⟩ : ∃ m, Fresh M m := by
    obtain ⟨m, hm⟩ := Infinite.exists_notMem_finset (M.cells.toFinset.biUnion fun c => verts c)
    refine ⟨m, fun c hc i h => hm ?_⟩
    exact Finset.mem_biUnion.2 ⟨c, List.mem_toFinset.2 hc, mem_verts.2 ⟨i, h⟩⟩
  have hmv : ∀ e ∈ M.cells, m ∉ verts e := fun e he h => by
    obtain ⟨i, hi⟩ := mem_verts.1 h
    exact hm e he i hi
  have hmF : m ∉ F := fun h => hmv c hc (hF h)
  have hM' : Proper ℝ (insertAt M F m x) := ⟨conforming_insertAt hin hm hinj hmF hM.conforming, positive_insertAt hin hm hinj hM.positive, by
    unfold Once
    simp only [range_verts]
    refine distinct_insertAt hm hinj ?_
    have := hM.once
    unfold Once at this
    simpa only [range_verts] using this⟩
  have hInner : Inner (insertAt M F m x) m := by
    apply inner_of_interior hM'
    rw [domain_insertAt hin hm hinj]
    simpa [insertAt] using hx.1
  -- the elements at the new vertex
  have child : ∀ e ∈ M.cells, F ⊆ verts e → ∃ i, e i ∈ F ∧ Function.update e i m ∈ (insertAt M F m x).cells ∧ m ∈ verts (Function.update e i m) := by
    intro e he hFe
    obtain ⟨a, ha⟩ := hin.nonempty
    obtain ⟨i, rfl⟩ := mem_verts.1 (hFe ha)
    exact ⟨i, ha, mem_insertAt.2 ⟨e, he, Or.inr ⟨hFe, i, ha, rfl⟩⟩, mem_verts.2 ⟨i, by simp⟩⟩
  obtain ⟨i, hi, h1, h2⟩ := child c hc hF
  obtain ⟨i', hi', h1', h2'⟩ := child c' hc' hF'
  have hstar := star_connected hM' hInner h1 h1' h2 h2'
  -- going around the vertex one goes through facets of the mesh that contain the point
  have key : ∀ e', Relation.ReflTransGen (Around (insertAt M F m x) m) (Function.update c' i' m) e' →
      ∀ e ∈ M.cells, F ⊆ verts e → ∀ j, e j ∈ F → e' = Function.update e j m → SameSide M I c' e := by
    intro e' hr
    induction hr with
    | refl =>
      intro e he hFe j hj heq
      have hv := verts_update (hinj c' hc') (m := m) i'
      rw [heq, verts_update (hinj e he)] at hv
      -- the same element
      have : verts e = verts c' := by
        refine Finset.eq_of_subset_of_card_le (fun u hu => ?_) (by rw [card_verts (hinj e he), card_verts (hinj c' hc')])
        by_cases hue : u = e j
        · exact hue ▸ hF' hj
        · have : u ∈ insert m ((verts e).erase (e j)) := Finset.mem_insert_of_mem (Finset.mem_erase.2 ⟨hue, hu⟩)
          rw [hv, Finset.mem_insert] at this
          rcases this with rfl | h
          · exact absurd hu (hmv e he)
          · exact Finset.mem_of_mem_erase h
      rw [eq_of_verts hM.once he hc' this]
      exact Relation.ReflTransGen.refl
    | @tail e1' e2' _ hstep ih =>
      intro e he hFe j hj heq
      obtain ⟨m1, m2, G, hGc, hmG, hG1, hG2⟩ := hstep
      obtain ⟨e1, he1, ⟨-, rfl⟩ | ⟨hFe1, j1, hj1, rfl⟩⟩ := mem_insertAt.1 m1
      · exact absurd (hG1 hmG) (hmv _ he1)
      subst heq
      have hrec := ih e1 he1 hFe1 j1 hj1 rfl
      rw [verts_update (hinj _ he1)] at hG1
      rw [verts_update (hinj _ he)] at hG2
      have g1 : ∀ u ∈ G.erase m, u ∈ verts e1 ∧ u ≠ e1 j1 := by
        intro u hu
        obtain ⟨hum, hu⟩ := Finset.mem_erase.1 hu
        rcases Finset.mem_insert.1 (hG1 hu) with h | h
        · exact absurd h hum
        · exact ⟨Finset.mem_of_mem_erase h, Finset.ne_of_mem_erase h⟩
      have g2 : ∀ u ∈ G.erase m, u ∈ verts e := by
        intro u hu
        obtain ⟨hum, hu⟩ := Finset.mem_erase.1 hu
        rcases Finset.mem_insert.1 (hG2 hu) with h | h
        · exact absurd h hum
        · exact Finset.mem_of_mem_erase h
      have hH1 : insert (e1 j1) (G.erase m) ⊆ verts e1 := by
        intro u hu
        rcases Finset.mem_insert.1 hu with rfl | h
        · exact hFe1 hj1
        · exact (g1 u h).1
      have hH2 : insert (e1 j1) (G.erase m) ⊆ verts e := by
        intro u hu
        rcases Finset.mem_insert.1 hu with rfl | h
        · exact hFe hj1
        · exact g2 u h
      have hcard : (insert (e1 j1) (G.erase m)).card = d := by
        rw [Finset.card_insert_of_notMem fun h => (g1 _ h).2 rfl, Finset.card_erase_of_mem hmG, hGc]
        have : 0 < G.card := Finset.card_pos.2 ⟨m, hmG⟩
        omega
      by_cases hsub : F ⊆ insert (e1 j1) (G.erase m)
      · refine hrec.tail ⟨he1, he, _, hcard, hH1, hH2, fun hI => hx.2 ⟨_, hI, ?_⟩⟩
        rw [hull_finset]
        exact ⟨μ, IsWeight.mono hin.toIsWeight hsub, by rw [IsWeight.sum_mono hin.toIsWeight hsub, hin.point]⟩
      · -- all vertices are the same
        obtain ⟨a, ha, han⟩ := Finset.not_subset.1 hsub
        have hall : ∀ e ∈ M.cells, F ⊆ verts e → insert (e1 j1) (G.erase m) ⊆ verts e → insert a (insert (e1 j1) (G.erase m)) = verts e := by
          intro e he hFe hH
          refine Finset.eq_of_subset_of_card_le (Finset.insert_subset (hFe ha) hH) ?_
          rw [card_verts (hinj e he), Finset.card_insert_of_notMem han, hcard]
        have : verts e = verts e1 := (hall e he hFe hH2).symm.trans (hall e1 he1 hFe1 hH1)
        rw [eq_of_verts hM.once he he1 this]
        exact hrec
  exact key _ hstar c hc hF i hi rfl

end Verif.Sides
