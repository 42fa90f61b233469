import Verif.Sides.Local
import Mathlib.Topology.Connected.Clopen

/-!
# The sides of the interface are parts of the domain
-/

namespace Verif.Sides

open Finset Verif.Refine Verif.MoveGeo

variable {d : ℕ}

theorem Through.symm {M : Mesh (Fin d → ℝ) d} {I : Finset ℕ → Prop} {c c' : Fin (d + 1) → ℕ} (h : Through M I c c') : Through M I c' c := by
  obtain ⟨h1, h2, F, h3, h4, h5, h6⟩ := h
  exact ⟨h2, h1, F, h3, h5, h4, h6⟩

theorem SameSide.symm {M : Mesh (Fin d → ℝ) d} {I : Finset ℕ → Prop} {c c' : Fin (d + 1) → ℕ} (h : SameSide M I c c') : SameSide M I c' c := by
  induction h with
  | refl => exact Relation.ReflTransGen.refl
  | tail _ h ih => exact Relation.ReflTransGen.head h.symm ih

theorem SameSide.mem {M : Mesh (Fin d → ℝ) d} {I : Finset ℕ → Prop} {c c' : Fin (d + 1) → ℕ} (h : SameSide M I c c') (hc : c ∈ M.cells) : c' ∈ M.cells := by
  induction h with
  | refl => exact hc
  | tail _ h _ => exact h.2.1

/-! ## Elements and facets are connected -/

section
variable {M : Mesh (Fin d → ℝ) d} (hM : Proper ℝ M) {I : Finset ℕ → Prop} (hI : Facets M I)
include hM hI

theorem inside_closed {c : Fin (d + 1) → ℕ} {x : Fin d → ℝ} (hx : x ∈ inside M c) : x ∈ convexHull ℝ (Set.range fun i => M.pos (c i)) := by
  obtain ⟨w, h0, h1, rfl⟩ := hx
  refine (convex_convexHull ℝ _).sum_mem (fun i _ => (h0 i).le) h1 fun i _ => subset_convexHull ℝ _ ⟨i, rfl⟩

theorem inside_free {c : Fin (d + 1) → ℕ} (hc : c ∈ M.cells) : inside M c ⊆ free M I := by
  intro x hx
  refine ⟨mem_interior.2 ⟨inside M c, fun y hy => ⟨c, hc, inside_closed hM hI hy⟩, open_inside hM.positive hc, hx⟩, ?_⟩
  rintro ⟨F, hF, hxF⟩
  obtain ⟨hcard, c', hc', hsub⟩ := hI F hF
  obtain ⟨w, h0, h1, h2⟩ := hx
  have hinj := hM.conforming.inj c hc
  obtain ⟨u, hu, hu0⟩ := exists_extension hinj w
  have hin : Inside M.pos (verts c) x u := by
    refine ⟨⟨fun v => ?_, hu0, ?_⟩, fun v hv => ?_, ?_⟩
    · by_cases hv : v ∈ verts c
      · obtain ⟨i, rfl⟩ := mem_verts.1 hv
        rw [hu]
        exact (h0 i).le
      · rw [hu0 v hv]
    · rw [sum_verts hinj]
      simp only [hu, h1]
    · obtain ⟨i, rfl⟩ := mem_verts.1 hv
      rw [hu]
      exact h0 i
    · rw [sum_verts hinj]
      simp only [hu, h2]
  have := Finset.card_le_card (carrier_subset hM.conforming hc hc' (Finset.Subset.refl _) hsub hin hxF)
  rw [card_verts hinj, hcard] at this
  omega

theorem inside_preconnected {c : Fin (d + 1) → ℕ} (hc : c ∈ M.cells) : IsPreconnected (inside M c) := by
  refine Convex.isPreconnected ?_
  intro x hx y hy a b ha hb hab
  rw [mem_inside hM.positive hc] at hx hy ⊢
  intro i
  have := volume_update_sum (fun k => M.pos (c k)) i (univ : Finset (Fin 2)) ![a, b] ![x, y] (by simpa using hab)
  simp only [Fin.sum_univ_two, Matrix.cons_val_zero, Matrix.cons_val_one] at this
  rw [this]
  rcases ha.lt_or_eq with h | rfl
  · have h1 := mul_pos h (hx i)
    have h2 := mul_nonneg hb (hy i).le
    linarith
  · have : b = 1 := by linarith
    subst this
    have := hy i
    linarith

theorem closure_inside {c : Fin (d + 1) → ℕ} (hc : c ∈ M.cells) {x : Fin d → ℝ} (hx : x ∈ convexHull ℝ (Set.range fun i => M.pos (c i))) : x ∈ closure (inside M c) := by
  obtain ⟨m, hm⟩ := center_inside hM.positive hc
  have hcl := (closed_iff (hM.positive c hc)).1 hx
  have hcont : Continuous fun t : ℝ => x + t • (m - x) := by fun_prop
  rw [mem_closure_iff]
  intro U hU hxU
  have h0 : (fun t : ℝ => x + t • (m - x)) 0 ∈ U := by simpa using hxU
  obtain ⟨ε, hε, hball⟩ := Metric.mem_nhds_iff.1 (hcont.continuousAt.preimage_mem_nhds (hU.mem_nhds h0))
  have hpos : 0 < min (ε / 2) 1 := lt_min (by linarith) one_pos
  refine ⟨x + min (ε / 2) 1 • (m - x), hball ?_, (mem_inside hM.positive hc).2 fun i => toward_center hpos (min_le_right _ _) (hcl i) (hm i)⟩
  rw [Metric.mem_ball, Real.dist_eq, sub_zero, abs_of_pos hpos]
  exact (min_le_left _ _).trans_lt (by linarith)

/-- The points near a point of a facet that two elements have in common belong to one of the two. -/
theorem interior_facet {c c' : Fin (d + 1) → ℕ} (hc : c ∈ M.cells) (hc' : c' ∈ M.cells) (hne : verts c ≠ verts c') {F : Finset ℕ} (hF : F.card = d) (h1 : F ⊆ verts c)
    (h2 : F ⊆ verts c') {q : Fin d → ℝ} {μ : ℕ → ℝ} (hq : Inside M.pos F q μ) : q ∈ interior (domain ℝ M) := by
  have hinj := hM.conforming.inj
  have hopp : ∀ e ∈ M.cells, F ⊆ verts e → ∃ i, e i ∉ F ∧ verts e \ {e i} = F := by
    intro e he hFe
    obtain ⟨v, hv, hvF⟩ := Finset.exists_mem_notMem_of_card_lt_card (s := F) (t := verts e) (by rw [card_verts (hinj e he), hF]; omega)
    obtain ⟨i, rfl⟩ := mem_verts.1 hv
    refine ⟨i, hvF, (Finset.eq_of_subset_of_card_le ?_ ?_).symm⟩
    · intro u hu
      exact Finset.mem_sdiff.2 ⟨hFe hu, by simpa using fun h : u = e i => hvF (h ▸ hu)⟩
    · rw [Finset.sdiff_singleton_eq_erase, Finset.card_erase_of_mem hv, card_verts (hinj e he), hF, Nat.add_sub_cancel]
  obtain ⟨i, hi, hvi⟩ := hopp c hc h1
  obtain ⟨j, hj, hvj⟩ := hopp c' hc' h2
  have hpart : Partner (c, i) (c', j) := by
    refine ⟨hvi.trans hvj.symm, fun h => hne ?_⟩
    refine Finset.eq_of_subset_of_card_le (fun u hu => ?_) (by rw [card_verts (hinj _ hc), card_verts (hinj _ hc')])
    by_cases hu' : u = c i
    · exact hu' ▸ h
    · exact h2 (hvi ▸ Finset.mem_sdiff.2 ⟨hu, by simpa using hu'⟩)
  obtain ⟨σ, s1, s2, s3⟩ := hpart.odd hM.conforming hM.positive hc hc'
  simp only at s1 s2
  -- near the point the other barycentric coordinates are positive
  have hpos : ∀ e ∈ M.cells, ∀ k, F ⊆ verts e → e k ∈ F → 0 < signedVolume (Function.update (fun l => M.pos (e l)) k q) := by
    intro e he k hFe hk
    rw [volume_facet (hinj e he) hFe hq]
    exact mul_pos (hq.strict _ hk) (hM.positive e he)
  let U : Set (Fin d → ℝ) := (⋂ k : {k // k ≠ i}, {x | 0 < signedVolume (Function.update (fun l => M.pos (c l)) k.1 x)}) ∩
    ⋂ k : {k // k ≠ j}, {x | 0 < signedVolume (Function.update (fun l => M.pos (c' l)) k.1 x)}
  have hU : IsOpen U := (isOpen_iInter_of_finite fun k => isOpen_lt continuous_const (continuous_volume _ _)).inter
    (isOpen_iInter_of_finite fun k => isOpen_lt continuous_const (continuous_volume _ _))
  have hFof : ∀ e ∈ M.cells, ∀ i, verts e \ {e i} = F → ∀ k, k ≠ i → e k ∈ F := by
    intro e he i h k hk
    rw [← h]
    exact Finset.mem_sdiff.2 ⟨mem_verts.2 ⟨k, rfl⟩, by simpa using fun h => hk (hinj e he h)⟩
  refine mem_interior.2 ⟨U, ?_, hU, ?_⟩
  · rintro x ⟨hx, hx'⟩
    rw [Set.mem_iInter] at hx hx'
    have e1 : signedVolume (Function.update (fun k => M.pos (c' k)) j x) = - signedVolume (Function.update (fun k => M.pos (c k)) i x) := by
      rw [update_perm M.pos s1 s2, volume_perm, s3]
      simp
    rcases le_total 0 (signedVolume (Function.update (fun k => M.pos (c k)) i x)) with h | h
    · refine ⟨c, hc, (closed_iff (hM.positive c hc)).2 fun k => ?_⟩
      by_cases hk : k = i
      · rw [hk]; exact h
      · exact (hx ⟨k, hk⟩).le
    · refine ⟨c', hc', (closed_iff (hM.positive c' hc')).2 fun k => ?_⟩
      by_cases hk : k = j
      · rw [hk, e1]; linarith
      · exact (hx' ⟨k, hk⟩).le
  · exact ⟨Set.mem_iInter.2 fun k => hpos c hc k.1 h1 (hFof c hc i hvi k.1 k.2), Set.mem_iInter.2 fun k => hpos c' hc' k.1 h2 (hFof c' hc' j hvj k.1 k.2)⟩

/-- Two elements with a common facet that is not in the interface are connected. -/
theorem through_connected (hd : 0 < d) {c c' : Fin (d + 1) → ℕ} (h : Through M I c c') :
    ∃ S, IsPreconnected S ∧ S ⊆ free M I ∧ inside M c ⊆ S ∧ inside M c' ⊆ S := by
  obtain ⟨hc, hc', F, hF, h1, h2, hno⟩ := h
  by_cases hne : verts c = verts c'
  · rw [eq_of_verts hM.once hc hc' hne]
    exact ⟨inside M c', inside_preconnected hM hI hc', inside_free hM hI hc', le_rfl, le_rfl⟩
  obtain ⟨q, μ, hq⟩ := middle M.pos (Finset.card_pos.1 (hF ▸ hd))
  have hqin : ∀ e ∈ M.cells, F ⊆ verts e → q ∈ convexHull ℝ (Set.range fun i => M.pos (e i)) := by
    intro e he hFe
    rw [hull_iff]
    exact ⟨μ, IsWeight.mono hq.toIsWeight hFe, by rw [IsWeight.sum_mono hq.toIsWeight hFe, hq.point]⟩
  have hqf : q ∈ free M I := by
    refine ⟨interior_facet hM hI hc hc' hne hF h1 h2 hq, ?_⟩
    rintro ⟨G, hG, hqG⟩
    obtain ⟨hcard, e, he, hGe⟩ := hI G hG
    have hFG := carrier_subset hM.conforming hc he h1 hGe hq hqG
    exact hno (Finset.eq_of_subset_of_card_le hFG (by rw [hF, hcard]) ▸ hG)
  have hone : ∀ e ∈ M.cells, F ⊆ verts e → IsPreconnected (insert q (inside M e)) := fun e he hFe =>
    (inside_preconnected hM hI he).subset_closure (Set.subset_insert _ _)
      (Set.insert_subset (closure_inside hM hI he (hqin e he hFe)) subset_closure)
  refine ⟨insert q (inside M c) ∪ insert q (inside M c'), ?_, ?_, fun x hx => Or.inl (Or.inr hx), fun x hx => Or.inr (Or.inr hx)⟩
  · exact IsPreconnected.union q (Set.mem_insert _ _) (Set.mem_insert _ _) (hone c hc h1) (hone c' hc' h2)
  · exact Set.union_subset (Set.insert_subset hqf (inside_free hM hI hc)) (Set.insert_subset hqf (inside_free hM hI hc'))

theorem same_connected (hd : 0 < d) {c c' : Fin (d + 1) → ℕ} (hc : c ∈ M.cells) (h : SameSide M I c c') :
    ∃ S, IsPreconnected S ∧ S ⊆ free M I ∧ inside M c ⊆ S ∧ inside M c' ⊆ S := by
  induction h with
  | refl => exact ⟨inside M c, inside_preconnected hM hI hc, inside_free hM hI hc, le_rfl, le_rfl⟩
  | tail _ hstep ih =>
    obtain ⟨S, h1, h2, h3, h4⟩ := ih
    obtain ⟨T, g1, g2, g3, g4⟩ := through_connected hM hI hd hstep
    obtain ⟨m, hm⟩ := center_inside hM.positive hstep.1
    have hm := (mem_inside hM.positive hstep.1).2 hm
    exact ⟨S ∪ T, IsPreconnected.union m (h4 hm) (g3 hm) h1 g1, Set.union_subset h2 g2, h3.trans Set.subset_union_left, g4.trans Set.subset_union_right⟩

/-! ## Properties -/

/-- **C202** One comes from one element to another one without going through the interface if and only if a point inside the first and a point inside the second are connected
within the domain without the interface. -/
theorem C202_connected (hd : 0 < d) {c c' : Fin (d + 1) → ℕ} (hc : c ∈ M.cells) (hc' : c' ∈ M.cells) {x y : Fin d → ℝ} (hx : x ∈ inside M c) (hy : y ∈ inside M c') :
    SameSide M I c c' ↔ ∃ S ⊆ interior (domain ℝ M) \ {p | ∃ F, I F ∧ p ∈ convexHull ℝ (M.pos '' (F : Set ℕ))}, IsPreconnected S ∧ x ∈ S ∧ y ∈ S := by
  constructor
  · intro h
    obtain ⟨S, h1, h2, h3, h4⟩ := same_connected hM hI hd hc h
    exact ⟨S, h2, h1, h3 hx, h4 hy⟩
  · rintro ⟨S, hS, hcon, hxS, hyS⟩
    by_contra hno
    have := isPreconnected_closed_iff.1 hcon _ _ (closed_union M fun e => SameSide M I c e) (closed_union M fun e => ¬ SameSide M I c e) (by
      intro p hp
      obtain ⟨e, he, hpe⟩ := interior_subset (hS hp).1
      by_cases hs : SameSide M I c e
      · exact Or.inl ⟨e, he, hs, hpe⟩
      · exact Or.inr ⟨e, he, hs, hpe⟩) ⟨x, hxS, c, hc, Relation.ReflTransGen.refl, inside_closed hM hI hx⟩ ⟨y, hyS, c', hc', hno, inside_closed hM hI hy⟩
    obtain ⟨p, hp, ⟨e, he, hs, hpe⟩, e', he', hs', hpe'⟩ := this
    exact hs' (hs.trans (same_at_point hM (hS hp) he' he hpe' hpe))

end

/-- **C202** Two meshes of the same domain with the same points of the interface have the same sides: whether two points are on the same side of the interface does not
depend on the mesh. -/
theorem C202_same (hd : 0 < d) {M M' : Mesh (Fin d → ℝ) d} {I I' : Finset ℕ → Prop} (hM : Proper ℝ M) (hM' : Proper ℝ M') (hI : Facets M I) (hI' : Facets M' I')
    (hdom : domain ℝ M' = domain ℝ M)
    (hint : {p | ∃ F, I' F ∧ p ∈ convexHull ℝ (M'.pos '' (F : Set ℕ))} = {p | ∃ F, I F ∧ p ∈ convexHull ℝ (M.pos '' (F : Set ℕ))})
    {c₁ c₂ c₁' c₂' : Fin (d + 1) → ℕ} (h₁ : c₁ ∈ M.cells) (h₂ : c₂ ∈ M.cells) (h₁' : c₁' ∈ M'.cells) (h₂' : c₂' ∈ M'.cells) {x y : Fin d → ℝ}
    (hx : x ∈ inside M c₁) (hx' : x ∈ inside M' c₁') (hy : y ∈ inside M c₂) (hy' : y ∈ inside M' c₂') : SameSide M' I' c₁' c₂' ↔ SameSide M I c₁ c₂ := by
  rw [C202_connected hM hI hd h₁ h₂ hx hy, C202_connected hM' hI' hd h₁' h₂' hx' hy', hdom, hint]

end Verif.Sides
