import Verif.Conserve.Model

/-!
# Areas and overlaps in conforming meshes of triangles
-/

namespace Verif.Conserve

open Refine Clip MeasureTheory

/-- The corners are in counter-clockwise order. -/
def Ccw (M : TMesh) : Prop := ∀ c ∈ M.cells, 0 < side (M.pos (c 0)) (M.pos (c 1)) (M.pos (c 2))

/-- No two elements have the same vertices. -/
def Distinct (cells : List (Fin 3 → ℕ)) : Prop := cells.Pairwise fun c c' => verts c ≠ verts c'

theorem fin_three : ∀ i : Fin 3, i = 0 ∨ i = 1 ∨ i = 2 := by decide

theorem region_corners (M : TMesh) (c : Fin 3 → ℕ) : region (corners M c) = Refine.hull ℝ M c := by
  unfold region Refine.hull corners
  congr 1
  ext x
  simp only [Set.mem_insert_iff, Set.mem_singleton_iff, Set.mem_range, Fin.exists_fin_succ, Fin.exists_fin_zero_pi, Fin.exists_fin_two]
  constructor
  · rintro (rfl | rfl | rfl)
    · exact Or.inl rfl
    · exact Or.inr (Or.inl rfl)
    · exact Or.inr (Or.inr (Or.inl rfl))
  · rintro (h | h | h | h)
    · exact Or.inl h.symm
    · exact Or.inr (Or.inl h.symm)
    · exact Or.inr (Or.inr h.symm)
    · exact absurd h (by rintro ⟨i, -⟩; exact i.elim0)

theorem hull_congr {M : TMesh} {c c' : Fin 3 → ℕ} (h : verts c = verts c') : Refine.hull ℝ M c = Refine.hull ℝ M c' := by
  unfold Refine.hull
  rw [range_image, range_image, h]

theorem leb_hull (M : TMesh) (c : Fin 3 → ℕ) : leb (Refine.hull ℝ M c) = ENNReal.ofReal (|side (M.pos (c 0)) (M.pos (c 1)) (M.pos (c 2))| / 2) := by
  rw [← region_corners, region_eq, measure_triangle]
  rfl

theorem leb_hull_ne_zero {M : TMesh} {c : Fin 3 → ℕ} (h : 0 < side (M.pos (c 0)) (M.pos (c 1)) (M.pos (c 2))) : leb (Refine.hull ℝ M c) ≠ 0 := by
  rw [leb_hull, Ne, ENNReal.ofReal_eq_zero, not_le]
  have := abs_pos.2 h.ne'
  linarith

theorem pos_mem_hull (M : TMesh) (c : Fin 3 → ℕ) (i : Fin 3) : M.pos (c i) ∈ Refine.hull ℝ M c := subset_convexHull ℝ _ ⟨i, rfl⟩

theorem card_verts {c : Fin 3 → ℕ} (hc : Function.Injective c) : (verts c).card = 3 := by
  rw [verts, Finset.card_image_of_injective _ hc, Finset.card_univ, Fintype.card_fin]

theorem convex_side (p r : ℝ × ℝ) : Convex ℝ {x | 0 ≤ side p r x} := by
  intro x hx y hy a b ha hb hab
  have hx' : 0 ≤ side p r x := hx
  have hy' : 0 ≤ side p r y := hy
  change 0 ≤ side p r (a • x + b • y)
  rw [side_affine3 hab]
  positivity

theorem convex_line (p r : ℝ × ℝ) : Convex ℝ {x | side p r x = 0} := by
  intro x hx y hy a b _ _ hab
  have hx' : side p r x = 0 := hx
  have hy' : side p r y = 0 := hy
  change side p r (a • x + b • y) = 0
  rw [side_affine3 hab, hx', hy']
  ring

/-- What two different elements have in common lies on a line, on one side of which the first element lies. -/
theorem meet_line {M : TMesh} (hM : Conforming ℝ M) (hccw : Ccw M) {c c' : Fin 3 → ℕ} (hc : c ∈ M.cells) (hc' : c' ∈ M.cells)
    (hne : verts c ≠ verts c') :
    ∃ p r, p ≠ r ∧ (∀ x ∈ Refine.hull ℝ M c, 0 ≤ side p r x) ∧ ∀ x ∈ Refine.hull ℝ M c ∩ Refine.hull ℝ M c', side p r x = 0 := by
  have hinj := hM.inj c hc
  obtain ⟨v, hv, hv'⟩ : ∃ v ∈ verts c, v ∉ verts c' := by
    by_contra hcon
    push Not at hcon
    exact hne (Finset.eq_of_subset_of_card_le hcon (by rw [card_verts hinj, card_verts (hM.inj c' hc')]))
  obtain ⟨i, rfl⟩ := mem_verts.1 hv
  have hoth : ∀ i l : Fin 3, l = i ∨ l = i + 1 ∨ l = i + 2 := by decide
  have hcyc : side (M.pos (c (i + 1))) (M.pos (c (i + 2))) (M.pos (c i)) = side (M.pos (c 0)) (M.pos (c 1)) (M.pos (c 2)) := by
    have := fin_three i
    rcases this with rfl | rfl | rfl
    · exact side_cycle _ _ _
    · change side (M.pos (c 2)) (M.pos (c 0)) (M.pos (c 1)) = _
      rw [side_cycle, side_cycle]
    · rfl
  have hp := hccw c hc
  refine ⟨M.pos (c (i + 1)), M.pos (c (i + 2)), ?_, ?_, ?_⟩
  · intro h
    rw [h, side_self1] at hcyc
    linarith
  · refine convexHull_min ?_ (convex_side _ _)
    rintro x ⟨l, rfl⟩
    change 0 ≤ side (M.pos (c (i + 1))) (M.pos (c (i + 2))) (M.pos (c l))
    rcases hoth i l with rfl | rfl | rfl
    · rw [hcyc]; exact hp.le
    · rw [side_self3]
    · rw [side_self2]
  · intro x hx
    have hx' := hM.meet c hc c' hc' hx
    refine convexHull_min ?_ (convex_line (M.pos (c (i + 1))) (M.pos (c (i + 2)))) hx'
    rintro y ⟨u, ⟨⟨l, rfl⟩, hu⟩, rfl⟩
    change side (M.pos (c (i + 1))) (M.pos (c (i + 2))) (M.pos (c l)) = 0
    rcases hoth i l with rfl | rfl | rfl
    · obtain ⟨j, hj⟩ := hu
      exact absurd (mem_verts.2 ⟨j, hj⟩) hv'
    · rw [side_self3]
    · rw [side_self2]

/-- Different elements of a conforming mesh overlap in a null set. -/
theorem null_inter {M : TMesh} (hM : Conforming ℝ M) (hccw : Ccw M) {c c' : Fin 3 → ℕ} (hc : c ∈ M.cells) (hc' : c' ∈ M.cells)
    (hne : verts c ≠ verts c') : leb (Refine.hull ℝ M c ∩ Refine.hull ℝ M c') = 0 := by
  obtain ⟨p, r, hpr, -, h⟩ := meet_line hM hccw hc hc' hne
  exact measure_mono_null h (measure_line hpr)

/-- If a triangle inside the element `c` overlaps with the element `o`, then `o` is `c`. -/
theorem overlap_eq {M : TMesh} (hM : Conforming ℝ M) (hccw : Ccw M) {o c : Fin 3 → ℕ} (ho : o ∈ M.cells) (hc : c ∈ M.cells) {A : Set (ℝ × ℝ)}
    (hA : A ⊆ Refine.hull ℝ M c) (h : leb (Refine.hull ℝ M o ∩ A) ≠ 0) : verts o = verts c := by
  by_contra hne
  exact h (measure_mono_null (Set.inter_subset_inter_right _ hA) (null_inter hM hccw ho hc hne))

/-- A point strictly inside a triangle that lies in the element `c` belongs to no other element. -/
theorem strict_eq {M M1 : TMesh} (hM : Conforming ℝ M) (hccw : Ccw M) {o c : Fin 3 → ℕ} (ho : o ∈ M.cells) (hc : c ∈ M.cells) {e : Fin 3 → ℕ}
    (hinj : Function.Injective e) (he : 0 < side (M1.pos (e 0)) (M1.pos (e 1)) (M1.pos (e 2))) (hsub : Refine.hull ℝ M1 e ⊆ Refine.hull ℝ M c)
    {x : ℝ × ℝ} {μ : ℕ → ℝ} (hin : Inside M1.pos (verts e) x μ) (hx : x ∈ Refine.hull ℝ M o) : verts o = verts c := by
  by_contra hne
  obtain ⟨p, r, hpr, hpos, h0⟩ := meet_line hM hccw hc ho (Ne.symm hne)
  have hxc : x ∈ Refine.hull ℝ M c := hsub ((hull_iff _ _ _).2 ⟨μ, hin.toIsWeight, hin.point⟩)
  have hx0 := h0 x ⟨hxc, hx⟩
  have hs := hin.sum
  have hpt := hin.point
  rw [sum_verts hinj, Fin.sum_univ_three] at hs hpt
  have hexp : side p r x = μ (e 0) * side p r (M1.pos (e 0)) + μ (e 1) * side p r (M1.pos (e 1)) + μ (e 2) * side p r (M1.pos (e 2)) := by
    rw [← hpt]
    simp only [side, Prod.fst_add, Prod.snd_add, Prod.smul_fst, Prod.smul_snd, smul_eq_mul]
    linear_combination ((r.1 - p.1) * p.2 - (r.2 - p.2) * p.1) * hs
  have hμ : ∀ i, 0 < μ (e i) := fun i => hin.strict _ (mem_verts.2 ⟨i, rfl⟩)
  have hq : ∀ i, 0 ≤ side p r (M1.pos (e i)) := fun i => hpos _ (hsub (pos_mem_hull M1 e i))
  have hz : ∀ i, side p r (M1.pos (e i)) = 0 := by
    have t0 := mul_nonneg (hμ 0).le (hq 0)
    have t1 := mul_nonneg (hμ 1).le (hq 1)
    have t2 := mul_nonneg (hμ 2).le (hq 2)
    have e0 : μ (e 0) * side p r (M1.pos (e 0)) = 0 := by linarith
    have e1 : μ (e 1) * side p r (M1.pos (e 1)) = 0 := by linarith
    have e2 : μ (e 2) * side p r (M1.pos (e 2)) = 0 := by linarith
    intro i
    have := fin_three i
    rcases this with rfl | rfl | rfl
    · exact (mul_eq_zero.1 e0).resolve_left (hμ 0).ne'
    · exact (mul_eq_zero.1 e1).resolve_left (hμ 1).ne'
    · exact (mul_eq_zero.1 e2).resolve_left (hμ 2).ne'
  refine leb_hull_ne_zero he (measure_mono_null ?_ (measure_line hpr))
  refine convexHull_min ?_ (convex_line p r)
  rintro y ⟨i, rfl⟩
  exact hz i

/-! ## Insertion -/

theorem side_update {M : TMesh} {F : Finset ℕ} {m : ℕ} {x : ℝ × ℝ} {μ : ℕ → ℝ} (hin : Inside M.pos F x μ) {c : Fin 3 → ℕ}
    (hc : Function.Injective c) (hF : F ⊆ verts c) (hm : ∀ i, c i ≠ m) (i : Fin 3) :
    side ((insertAt M F m x).pos (Function.update c i m 0)) ((insertAt M F m x).pos (Function.update c i m 1))
      ((insertAt M F m x).pos (Function.update c i m 2)) = μ (c i) * side (M.pos (c 0)) (M.pos (c 1)) (M.pos (c 2)) := by
  have hs : ∑ v ∈ verts c, μ v = 1 := by
    rw [← hin.sum]
    exact (Finset.sum_subset hF fun v _ hv => hin.off v hv).symm
  have hp : ∑ v ∈ verts c, μ v • M.pos v = x := by
    rw [← hin.point]
    exact (Finset.sum_subset hF fun v _ hv => by rw [hin.off v hv, zero_smul]).symm
  rw [sum_verts hc, Fin.sum_univ_three] at hs hp
  have hu : ∀ j, (insertAt M F m x).pos (Function.update c i m j) = if j = i then x else M.pos (c j) := by
    intro j
    by_cases h : j = i
    · subst h
      simp [insertAt]
    · rw [Function.update_of_ne h, if_neg h]
      exact Function.update_of_ne (hm j) _ _
  rw [hu, hu, hu, ← hp]
  have h2 : μ (c 2) = 1 - μ (c 0) - μ (c 1) := by linarith
  have := fin_three i
  rcases this with rfl | rfl | rfl
  all_goals
    simp only [side, Prod.fst_add, Prod.snd_add, Prod.smul_fst, Prod.smul_snd, smul_eq_mul, h2, if_true, Fin.isValue, Fin.reduceEq, if_false]
    ring

theorem ccw_insertAt {M : TMesh} {F : Finset ℕ} {m : ℕ} {x : ℝ × ℝ} {μ : ℕ → ℝ} (hin : Inside M.pos F x μ) (hm : Fresh M m)
    (hinj : ∀ c ∈ M.cells, Function.Injective c) (hccw : Ccw M) : Ccw (insertAt M F m x) := by
  intro c' hc'
  obtain ⟨c, hc, ⟨-, rfl⟩ | ⟨hF, i, hi, rfl⟩⟩ := mem_insertAt.1 hc'
  · have : ∀ i, (insertAt M F m x).pos (c' i) = M.pos (c' i) := fun i => Function.update_of_ne (hm c' hc i) _ _
    rw [this, this, this]
    exact hccw c' hc
  · rw [side_update hin (hinj c hc) hF (hm c hc)]
    exact mul_pos (hin.strict _ hi) (hccw c hc)

theorem distinct_insertAt {M : TMesh} {F : Finset ℕ} {m : ℕ} {x : ℝ × ℝ} (hm : Fresh M m)
    (hinj : ∀ c ∈ M.cells, Function.Injective c) (hd : Distinct M.cells) : Distinct (insertAt M F m x).cells := by
  have hmv : ∀ c ∈ M.cells, m ∉ verts c := fun c hc h => by
    obtain ⟨i, hi⟩ := mem_verts.1 h
    exact hm c hc i hi
  have key : ∀ cs : List (Fin 3 → ℕ), (∀ c ∈ cs, c ∈ M.cells) → Distinct cs → Distinct (cs.flatMap (splitCell F m)) := by
    intro cs hcs hd
    rw [Distinct, List.pairwise_flatMap]
    constructor
    · intro c hc
      unfold splitCell
      split
      · rename_i hF
        rw [List.pairwise_map]
        refine List.Pairwise.filter _ ?_
        refine (List.nodup_finRange 3).imp ?_
        intro i j hij heq
        rw [verts_update (hinj c (hcs c hc)), verts_update (hinj c (hcs c hc))] at heq
        have : c i ∈ insert m ((verts c).erase (c j)) := by
          refine Finset.mem_insert_of_mem (Finset.mem_erase.2 ⟨fun h => hij (hinj c (hcs c hc) h), mem_verts.2 ⟨i, rfl⟩⟩)
        rw [← heq, Finset.mem_insert, Finset.mem_erase] at this
        rcases this with h | h
        · exact hm c (hcs c hc) i h
        · exact h.1 rfl
      · simp
    · rw [Distinct] at hd
      refine List.Pairwise.imp_of_mem ?_ hd
      intro c c' hc hc' hne y hy y' hy' heq
      have hc1 := hcs c hc
      have hc1' := hcs c' hc'
      unfold splitCell at hy hy'
      split at hy <;> split at hy'
      · rename_i hF hF'
        simp only [List.mem_map, List.mem_filter, decide_eq_true_eq] at hy hy'
        obtain ⟨i, ⟨-, hi⟩, rfl⟩ := hy
        obtain ⟨j, ⟨-, hj⟩, rfl⟩ := hy'
        rw [verts_update (hinj c hc1), verts_update (hinj c' hc1')] at heq
        have heq' : (verts c).erase (c i) = (verts c').erase (c' j) := by
          have h1 : m ∉ (verts c).erase (c i) := fun h => hmv c hc1 (Finset.mem_of_mem_erase h)
          have h2 : m ∉ (verts c').erase (c' j) := fun h => hmv c' hc1' (Finset.mem_of_mem_erase h)
          rw [← Finset.erase_insert h1, heq, Finset.erase_insert h2]
        have hij : c i = c' j := by
          by_contra h
          have : c i ∈ (verts c').erase (c' j) := Finset.mem_erase.2 ⟨h, hF' hi⟩
          rw [← heq'] at this
          exact (Finset.mem_erase.1 this).1 rfl
        refine hne ?_
        rw [← Finset.insert_erase (mem_verts.2 ⟨i, rfl⟩ : c i ∈ verts c), heq', hij, Finset.insert_erase (mem_verts.2 ⟨j, rfl⟩)]
      · simp only [List.mem_map, List.mem_filter, decide_eq_true_eq, List.mem_singleton] at hy hy'
        obtain ⟨i, -, rfl⟩ := hy
        subst hy'
        rw [verts_update (hinj c hc1)] at heq
        exact hmv _ hc1' (heq ▸ Finset.mem_insert_self _ _)
      · simp only [List.mem_map, List.mem_filter, decide_eq_true_eq, List.mem_singleton] at hy hy'
        obtain ⟨i, -, rfl⟩ := hy'
        subst hy
        rw [verts_update (hinj c' hc1')] at heq
        exact hmv _ hc1 (heq ▸ Finset.mem_insert_self _ _)
      · simp only [List.mem_singleton] at hy hy'
        subst hy hy'
        exact hne heq
  exact key M.cells (fun _ h => h) hd

/-! ## Removal -/

/-- The elements that fill the hole are not elements that were kept. -/
theorem filled_ne_kept {M : TMesh} {v : ℕ} {N : List (Fin 3 → ℕ)} (hM : Conforming ℝ M) (hN : Fills ℝ M v N) (hv : Inner M v)
    {n c : Fin 3 → ℕ} (hn : n ∈ N) (hc : c ∈ M.cells) : verts n ≠ verts c := by
  intro heq
  have hvn : v ∉ verts n := fun h => by
    obtain ⟨i, hi⟩ := mem_verts.1 h
    exact (hN.link n hn i).1 hi
  have hcard := card_verts (hM.inj c hc)
  have hw : IsWeight (verts c) (fun u => if u ∈ verts c then (1 / 3 : ℝ) else 0) := by
    refine ⟨fun u => by split_ifs <;> norm_num, fun u hu => by simp [hu], ?_⟩
    rw [Finset.sum_ite_mem, Finset.inter_self, Finset.sum_const, hcard]
    norm_num
  obtain ⟨f, hf, hvf, hx⟩ := (hN.covers hv _).1 ⟨n, hn, (hull_iff _ _ _).2 ⟨_, heq ▸ hw, rfl⟩⟩
  obtain ⟨w', hw', hwx⟩ := (hull_iff _ _ _).1 hx
  have e := hM.unique f hf c hc w' _ hw' hw (by rw [hwx, heq])
  have hsub : verts c ⊆ verts f := by
    intro u hu
    by_contra hnu
    have := hw'.off u hnu
    rw [e] at this
    simp [hu] at this
  have := Finset.eq_of_subset_of_card_le hsub (by rw [hcard, card_verts (hM.inj f hf)])
  rw [heq, this] at hvn
  exact hvn (mem_verts.2 hvf)

theorem ccw_removeAt {M : TMesh} {v : ℕ} {N : List (Fin 3 → ℕ)} (h : Ccw M)
    (hN : ∀ n ∈ N, 0 < side (M.pos (n 0)) (M.pos (n 1)) (M.pos (n 2))) : Ccw (removeAt M v N) := by
  intro c hc
  rcases mem_removeAt.1 hc with ⟨hc, -⟩ | hc
  · exact h c hc
  · exact hN c hc

theorem distinct_removeAt {M : TMesh} {v : ℕ} {N : List (Fin 3 → ℕ)} (hM : Conforming ℝ M) (hN : Fills ℝ M v N) (hv : Inner M v)
    (h : Distinct M.cells) (hd : Distinct N) : Distinct (removeAt M v N).cells := by
  unfold removeAt Distinct
  rw [List.pairwise_append]
  refine ⟨h.filter _, hd, fun c hc n hn => ?_⟩
  exact (filled_ne_kept hM hN hv hn (List.mem_filter.1 hc).1).symm

/-- What overlaps with an element that fills the hole overlaps with an element that was removed. -/
theorem overlap_star {M : TMesh} {v : ℕ} {N : List (Fin 3 → ℕ)} (hN : Fills ℝ M v N) (hv : Inner M v) {n : Fin 3 → ℕ} (hn : n ∈ N) {A : Set (ℝ × ℝ)}
    (h : leb (A ∩ Refine.hull ℝ M n) ≠ 0) : ∃ f ∈ M.cells, v ∈ verts f ∧ leb (A ∩ Refine.hull ℝ M f) ≠ 0 := by
  by_contra hcon
  push Not at hcon
  refine h (measure_mono_null (t := ⋃ f ∈ {f | f ∈ M.cells ∧ v ∈ verts f}, A ∩ Refine.hull ℝ M f) ?_ ?_)
  · rintro x ⟨hxA, hx⟩
    obtain ⟨f, hf, hvf, hxf⟩ := (hN.covers hv x).1 ⟨n, hn, hx⟩
    exact Set.mem_biUnion (show f ∈ {f | f ∈ M.cells ∧ v ∈ verts f} from ⟨hf, mem_verts.2 hvf⟩) ⟨hxA, hxf⟩
  · refine (measure_biUnion_null_iff ?_).2 fun f hf => hcon f hf.1 hf.2
    exact ((M.cells.finite_toSet).subset fun f hf => hf.1).countable

end Verif.Conserve
