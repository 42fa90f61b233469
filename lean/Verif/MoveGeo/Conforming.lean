import Verif.MoveGeo.Props
import Mathlib.Algebra.BigOperators.Field

/-!
# The moved mesh is conforming

If two elements of the moved mesh met in a point that is not in their common face, then after moving one inner vertex a little more they would overlap, which
`C191_disjoint` excludes.
-/

namespace Verif.MoveGeo

open Verif.Refine Finset

variable {K : Type*} [Field K] [LinearOrder K] [IsStrictOrderedRing K] {d : ℕ}

/-- An element that contains a point inside another one has points inside the other one inside itself. -/
theorem inside_of_closed {M : Mesh (Fin d → K) d} (hp : Positive M) {c c' : Fin (d + 1) → ℕ} (hc : c ∈ M.cells) (hc' : c' ∈ M.cells) {x : Fin d → K}
    (hx : x ∈ inside M c) (hx' : x ∈ convexHull K (Set.range fun i => M.pos (c' i))) : ¬ Disjoint (inside M c) (inside M c') := by
  have hcl := (closed_iff (hp c' hc')).1 hx'
  have ho := (mem_inside hp hc).1 hx
  obtain ⟨m, hm⟩ := center_inside hp hc'
  obtain ⟨t, ht0, ht1, ht⟩ := small_step ((List.finRange (d + 1)).map fun i => (signedVolume (Function.update (fun k => M.pos (c k)) i x),
      signedVolume (Function.update (fun k => M.pos (c k)) i m) - signedVolume (Function.update (fun k => M.pos (c k)) i x))) (by
    intro a ha
    obtain ⟨i, -, rfl⟩ := List.mem_map.1 ha
    exact ho i)
  rw [Set.not_disjoint_iff]
  refine ⟨x + t • (m - x), ?_, ?_⟩
  · rw [mem_inside hp hc]
    intro i
    rw [volume_line]
    exact ht t ht0 (le_refl _) _ (List.mem_map.2 ⟨i, List.mem_finRange i, rfl⟩)
  · rw [mem_inside hp hc']
    exact fun i => toward_center ht0 ht1 (hcl i) (hm i)

/-- The volume of an element, when one vertex moves on a line. -/
theorem volume_moving (pos : ℕ → Fin d → K) (s : ℕ) (u : Fin d → K) {c : Fin (d + 1) → ℕ} (hc : Function.Injective c) :
    ∃ k : K, ∀ t : K, signedVolume (fun i => Function.update pos s (pos s + t • u) (c i)) = signedVolume (fun i => pos (c i)) + t * k := by
  by_cases h : ∃ i0, c i0 = s
  · obtain ⟨i0, rfl⟩ := h
    refine ⟨signedVolume (Function.update (fun i => pos (c i)) i0 (pos (c i0) + u)) - signedVolume (fun i => pos (c i)), fun t => ?_⟩
    have e : (fun i => Function.update pos (c i0) (pos (c i0) + t • u) (c i)) =
        Function.update (fun i => pos (c i)) i0 (pos (c i0) + t • ((pos (c i0) + u) - pos (c i0))) := by
      funext i
      by_cases hi : i = i0
      · subst hi
        rw [Function.update_self, Function.update_self, add_sub_cancel_left]
      · rw [Function.update_of_ne fun e => hi (hc e), Function.update_of_ne hi]
    rw [e, volume_line, show Function.update (fun i => pos (c i)) i0 (pos (c i0)) = fun i => pos (c i) from Function.update_eq_self _ _]
  · push Not at h
    refine ⟨0, fun t => ?_⟩
    rw [mul_zero, add_zero]
    congr 1
    funext i
    rw [Function.update_of_ne (h i)]

/-- If the vertex `s` of an element moves away from the opposite facet, the points of the element that do not lie on this facet get inside. -/
theorem inside_update (pos : ℕ → Fin d → K) {c : Fin (d + 1) → ℕ} (hc : Function.Injective c) (i0 : Fin (d + 1)) {w : Fin (d + 1) → K} (h0 : ∀ i, 0 ≤ w i)
    (h1 : ∑ i, w i = 1) (hs : 0 < w i0) {t : K} (ht : 0 < t) :
    ∃ w' : Fin (d + 1) → K, (∀ i, 0 < w' i) ∧ ∑ i, w' i = 1 ∧
      ∑ i, w' i • Function.update pos (c i0) (pos (c i0) + t • ∑ j, (pos (c i0) - pos (c j))) (c i) = ∑ i, w i • pos (c i) := by
  have hd : 0 < 1 + (d : K) * t := by positivity
  have hcard : ((univ.erase i0).card : K) = d := by
    rw [Finset.card_erase_of_mem (mem_univ _), Finset.card_univ, Fintype.card_fin]
    simp
  refine ⟨fun i => if i = i0 then w i0 / (1 + d * t) else w i + w i0 * t / (1 + d * t), fun i => ?_, ?_, ?_⟩
  · simp only
    split_ifs
    · exact div_pos hs hd
    · have : 0 < w i0 * t / (1 + d * t) := div_pos (mul_pos hs ht) hd
      have := h0 i
      linarith
  · rw [← Finset.add_sum_erase _ _ (mem_univ i0)] at h1 ⊢
    rw [if_pos rfl, Finset.sum_congr rfl fun i hi => if_neg (Finset.ne_of_mem_erase hi), Finset.sum_add_distrib, Finset.sum_const, nsmul_eq_mul, hcard]
    have : w i0 / (1 + d * t) + d * (w i0 * t / (1 + d * t)) = w i0 := by
      field_simp
    linarith
  · rw [← Finset.add_sum_erase _ _ (mem_univ i0), ← Finset.add_sum_erase univ (fun i => w i • pos (c i)) (mem_univ i0)]
    have e : ∀ i ∈ univ.erase i0, (if i = i0 then w i0 / (1 + d * t) else w i + w i0 * t / (1 + d * t)) •
        Function.update pos (c i0) (pos (c i0) + t • ∑ j, (pos (c i0) - pos (c j))) (c i) = w i • pos (c i) + (w i0 * t / (1 + d * t)) • pos (c i) := by
      intro i hi
      rw [if_neg (Finset.ne_of_mem_erase hi), Function.update_of_ne fun e => Finset.ne_of_mem_erase hi (hc e), add_smul]
    beta_reduce
    rw [if_pos rfl, Function.update_self, Finset.sum_congr rfl e, Finset.sum_add_distrib, ← Finset.smul_sum,
      ← Finset.add_sum_erase univ (fun j => pos (c i0) - pos (c j)) (mem_univ i0), sub_self, zero_add, Finset.sum_sub_distrib, Finset.sum_const,
      ← Nat.cast_smul_eq_nsmul K, hcard]
    generalize (∑ i ∈ univ.erase i0, pos (c i)) = S
    generalize (∑ i ∈ univ.erase i0, w i • pos (c i)) = T
    funext k
    simp only [Pi.add_apply, Pi.smul_apply, Pi.sub_apply, smul_eq_mul]
    field_simp
    ring

section Main

variable {M : Mesh (Fin d → K) d} {shift : ℕ → Fin d → K} (hM : Conforming K M) (hp : Positive M) (h1 : Once M)
  (hs : ∀ v ∈ vertices M, ¬ Inner M v → shift v = 0) (hp' : Positive (moved M shift))

include hM hp h1 hs hp'

/-- An inner vertex that is needed to describe a point in one element is needed in every other element that contains the point. -/
theorem inner_shared {c c' : Fin (d + 1) → ℕ} (hc : c ∈ M.cells) (hc' : c' ∈ M.cells) (hne : Set.range c ≠ Set.range c') {w w' : ℕ → K} (hw : IsWeight (verts c) w)
    (hw' : IsWeight (verts c') w') (heq : ∑ v ∈ verts c, w v • (moved M shift).pos v = ∑ v ∈ verts c', w' v • (moved M shift).pos v) (s : ℕ) (hin : Inner M s)
    (hsw : 0 < w s) (hsw' : w' s = 0) : False := by
  classical
  have hsc : s ∈ verts c := by
    by_contra h
    rw [hw.off s h] at hsw
    exact lt_irrefl _ hsw
  obtain ⟨i0, rfl⟩ := mem_verts.1 hsc
  let p := (moved M shift).pos
  let u : Fin d → K := ∑ j, (p (c i0) - p (c j))
  have hk : ∀ e ∈ M.cells, ∃ k : K, ∀ t : K, signedVolume (fun i => Function.update p (c i0) (p (c i0) + t • u) (e i)) =
      signedVolume (fun i => p (e i)) + t * k := fun e he => volume_moving p (c i0) u (hM.inj e he)
  choose! k hk using hk
  obtain ⟨t, ht0, -, ht⟩ := small_step (M.cells.map fun e => (signedVolume (fun i => p (e i)), k e)) (by
    intro a ha
    obtain ⟨e, he, rfl⟩ := List.mem_map.1 ha
    exact hp' e he)
  let shift' : ℕ → Fin d → K := Function.update shift (c i0) (shift (c i0) + t • u)
  have hpos : (moved M shift').pos = Function.update p (c i0) (p (c i0) + t • u) := by
    funext v
    by_cases hv : v = c i0
    · subst hv
      simp only [moved, shift', Function.update_self, p]
      rw [add_assoc]
    · simp only [moved, shift', Function.update_of_ne hv, p]
  have hs' : ∀ v ∈ vertices M, ¬ Inner M v → shift' v = 0 := by
    intro v hv hi
    have : v ≠ c i0 := by
      rintro rfl
      exact hi hin
    simp only [shift', Function.update_of_ne this]
    exact hs v hv hi
  have hp'' : Positive (moved M shift') := by
    intro e he
    rw [hpos, hk e he]
    exact ht t ht0 (le_refl _) _ (List.mem_map.2 ⟨e, he, rfl⟩)
  have hinj := hM.inj c hc
  have hinj' := hM.inj c' hc'
  refine inside_of_closed hp'' (show c ∈ (moved M shift').cells from hc) (show c' ∈ (moved M shift').cells from hc') (x := ∑ v ∈ verts c, w v • p v) ?_ ?_
    (C191_disjoint hM hp h1 hs' hp'' hc hc' hne)
  · obtain ⟨z, z0, z1, z2⟩ := inside_update p hinj i0 (w := fun i => w (c i)) (fun i => hw.nonneg _) (by rw [← sum_verts hinj]; exact hw.sum) hsw ht0
    refine ⟨z, z0, z1, ?_⟩
    rw [hpos, sum_verts hinj fun v => w v • p v]
    exact z2
  · rw [heq]
    refine (hull_iff _ _ _).2 ⟨w', hw', Finset.sum_congr rfl fun v _ => ?_⟩
    by_cases hv : v = c i0
    · subst hv
      rw [hsw', zero_smul, zero_smul]
    · rw [hpos, Function.update_of_ne hv]

/-- **C191** If no vertex on the boundary is moved and all elements have positive volume after the movement, the moved mesh is conforming. -/
theorem C191_conforming : Conforming K (moved M shift) := by
  classical
  refine conforming_of_unique (fun c hc => hM.inj c hc) ?_
  intro c hc c' hc' w w' hw hw' heq
  by_cases hne : Set.range c = Set.range c'
  · have hv : verts c' = verts c := by
      ext v
      rw [mem_verts, mem_verts]
      exact (Set.ext_iff.1 hne v).symm
    rw [hv] at hw' heq
    exact weight_unique_of_indep (independent_of_volume (hp' c hc).ne') hw hw' heq
  by_contra hww
  let p := (moved M shift).pos
  let S := verts c ∪ verts c'
  have hS : ∀ {u : ℕ → K} {T : Finset ℕ}, T ⊆ S → (∀ v, v ∉ T → u v = 0) → ∑ v ∈ S, u v = ∑ v ∈ T, u v ∧ ∑ v ∈ S, u v • p v = ∑ v ∈ T, u v • p v := by
    intro u T hT hu
    exact ⟨(Finset.sum_subset hT fun v _ hv => hu v hv).symm, (Finset.sum_subset hT fun v _ hv => by rw [hu v hv, zero_smul]).symm⟩
  have hl : verts c ⊆ S := Finset.subset_union_left
  have hr : verts c' ⊆ S := Finset.subset_union_right
  obtain ⟨a1, a2⟩ := hS hl hw.off
  obtain ⟨b1, b2⟩ := hS hr hw'.off
  let z : ℕ → K := fun v => max (w v - w' v) 0
  let z' : ℕ → K := fun v => max (w' v - w v) 0
  have hz0 : ∀ v, 0 ≤ z v := fun v => le_max_right _ _
  have hz0' : ∀ v, 0 ≤ z' v := fun v => le_max_right _ _
  have hzz : ∀ v, z v - z' v = w v - w' v := by
    intro v
    simp only [z, z']
    rcases le_total (w v) (w' v) with h | h
    · rw [max_eq_right (by linarith), max_eq_left (by linarith)]
      ring
    · rw [max_eq_left (by linarith), max_eq_right (by linarith)]
      ring
  have hdis : ∀ v, 0 < z v → z' v = 0 := by
    intro v hv
    simp only [z, z'] at hv ⊢
    rcases le_total (w v) (w' v) with h | h
    · rw [max_eq_right (by linarith)] at hv
      exact absurd hv (lt_irrefl _)
    · exact max_eq_right (by linarith)
  have hoff : ∀ v, v ∉ verts c → z v = 0 := by
    intro v hv
    simp only [z]
    rw [hw.off v hv]
    have := hw'.nonneg v
    exact max_eq_right (by linarith)
  have hoff' : ∀ v, v ∉ verts c' → z' v = 0 := by
    intro v hv
    simp only [z']
    rw [hw'.off v hv]
    have := hw.nonneg v
    exact max_eq_right (by linarith)
  obtain ⟨c1, c2⟩ := hS hl hoff
  obtain ⟨d1, d2⟩ := hS hr hoff'
  have hsum : ∑ v ∈ verts c, z v = ∑ v ∈ verts c', z' v := by
    rw [← c1, ← d1, ← sub_eq_zero, ← Finset.sum_sub_distrib, Finset.sum_congr rfl fun v _ => hzz v, Finset.sum_sub_distrib, a1, b1, hw.sum, hw'.sum, sub_self]
  have hpt : ∑ v ∈ verts c, z v • p v = ∑ v ∈ verts c', z' v • p v := by
    rw [← c2, ← d2, ← sub_eq_zero, ← Finset.sum_sub_distrib]
    rw [Finset.sum_congr rfl fun v _ => show z v • p v - z' v • p v = w v • p v - w' v • p v by rw [← sub_smul, hzz, sub_smul]]
    rw [Finset.sum_sub_distrib, a2, b2, sub_eq_zero]
    exact heq
  -- the weights differ, so that the positive parts are not zero
  let τ := ∑ v ∈ verts c, z v
  have hτ : 0 < τ := by
    refine lt_of_le_of_ne (Finset.sum_nonneg fun v _ => hz0 v) fun h0 => hww ?_
    have e1 : ∀ v, z v = 0 := by
      intro v
      by_cases hv : v ∈ verts c
      · exact (Finset.sum_eq_zero_iff_of_nonneg fun v _ => hz0 v).1 h0.symm v hv
      · exact hoff v hv
    have e2 : ∀ v, z' v = 0 := by
      intro v
      by_cases hv : v ∈ verts c'
      · exact (Finset.sum_eq_zero_iff_of_nonneg fun v _ => hz0' v).1 (hsum.symm.trans h0.symm) v hv
      · exact hoff' v hv
    funext v
    have := hzz v
    rw [e1, e2, sub_zero] at this
    linarith
  have hu : IsWeight (verts c) fun v => z v / τ :=
    ⟨fun v => div_nonneg (hz0 v) hτ.le, fun v hv => by simp only [hoff v hv, zero_div], by rw [← Finset.sum_div]; exact div_self hτ.ne'⟩
  have hu' : IsWeight (verts c') fun v => z' v / τ :=
    ⟨fun v => div_nonneg (hz0' v) hτ.le, fun v hv => by simp only [hoff' v hv, zero_div], by rw [← Finset.sum_div, ← hsum]; exact div_self hτ.ne'⟩
  have hscale : ∀ (T : Finset ℕ) (f : ℕ → K) (q : ℕ → Fin d → K), ∑ v ∈ T, (f v / τ) • q v = τ⁻¹ • ∑ v ∈ T, f v • q v := by
    intro T f q
    rw [Finset.smul_sum]
    refine Finset.sum_congr rfl fun v _ => ?_
    rw [smul_smul, div_eq_inv_mul]
  have hpu : ∑ v ∈ verts c, (z v / τ) • p v = ∑ v ∈ verts c', (z' v / τ) • p v := by rw [hscale, hscale, hpt]
  have hdis' : ∀ v, 0 < z' v → z v = 0 := by
    intro v hv
    by_contra h
    have := hdis v (lt_of_le_of_ne (hz0 v) (Ne.symm h))
    rw [this] at hv
    exact lt_irrefl _ hv
  have hb : ∀ v, 0 < z v → ¬ Inner M v := fun v hv hi =>
    inner_shared hM hp h1 hs hp' hc hc' hne hu hu' hpu v hi (div_pos hv hτ) (by rw [hdis v hv, zero_div])
  have hb' : ∀ v, 0 < z' v → ¬ Inner M v := fun v hv hi =>
    inner_shared hM hp h1 hs hp' hc' hc (Ne.symm hne) hu' hu hpu.symm v hi (div_pos hv hτ) (by rw [hdis' v hv, zero_div])
  have hfix : ∀ v, v ∈ vertices M → ¬ Inner M v → p v = M.pos v := by
    intro v hv hi
    simp only [p, moved]
    rw [hs v hv hi, add_zero]
  have hold : ∑ v ∈ verts c, (z v / τ) • M.pos v = ∑ v ∈ verts c', (z' v / τ) • M.pos v := by
    have l : ∑ v ∈ verts c, (z v / τ) • M.pos v = ∑ v ∈ verts c, (z v / τ) • p v := by
      refine Finset.sum_congr rfl fun v hv => ?_
      rcases (hz0 v).eq_or_lt with h | h
      · rw [← h, zero_div, zero_smul, zero_smul]
      · rw [hfix v ⟨c, hc, mem_verts.1 hv⟩ (hb v h)]
    have r : ∑ v ∈ verts c', (z' v / τ) • M.pos v = ∑ v ∈ verts c', (z' v / τ) • p v := by
      refine Finset.sum_congr rfl fun v hv => ?_
      rcases (hz0' v).eq_or_lt with h | h
      · rw [← h, zero_div, zero_smul, zero_smul]
      · rw [hfix v ⟨c', hc', mem_verts.1 hv⟩ (hb' v h)]
    rw [l, r, hpu]
  have hsame := hM.unique c hc c' hc' _ _ hu hu' hold
  obtain ⟨v, hv, hvz⟩ : ∃ v ∈ verts c, 0 < z v := by
    by_contra hno
    push Not at hno
    have : τ ≤ 0 := Finset.sum_nonpos hno
    linarith
  have := congrFun hsame v
  simp only [hdis v hvz, zero_div] at this
  have h2 : 0 < z v / τ := div_pos hvz hτ
  linarith

end Main

end Verif.MoveGeo
