import Verif.Refine.Global
import Verif.IndexSet.Sizes
import Mathlib.Algebra.BigOperators.Group.Finset.Powerset

/-!
# C225: the numbers of entities under refinement
-/

namespace Verif.Refine

open Finset

set_option linter.unusedSectionVars false

variable {K V : Type*} [Field K] [LinearOrder K] [AddCommGroup V] [Module K V] {d : ℕ}

/-! ## Specification -/

/-- The number of entities of dimension `k` of a mesh, which is the size of the index set (C223): the sets of `k + 1` vertices that belong to an element. -/
noncomputable def entities (M : Mesh V d) (k : ℕ) : ℕ := (IndexSet.Simplices k (M.cells.map fun c => univ.image c)).ncard

/-- The Euler number: the number of vertices, minus the number of edges, plus the number of triangles, minus the number of tetrahedra. -/
noncomputable def euler (M : Mesh V d) : ℤ := ∑ k ∈ range (d + 1), (-1) ^ k * (entities M k : ℤ)

/-! ## Proofs -/

/-- All sets of vertices of an element. -/
def complex (M : Mesh V d) : Finset (Finset ℕ) := M.cells.toFinset.biUnion fun c => (verts c).powerset

theorem mem_complex {M : Mesh V d} {S : Finset ℕ} : S ∈ complex M ↔ ∃ c ∈ M.cells, S ⊆ verts c := by
  simp [complex]

theorem simplices_eq (M : Mesh V d) (k : ℕ) : IndexSet.Simplices k (M.cells.map fun c => univ.image c) = ↑((complex M).filter fun S => S.card = k + 1) := by
  ext S
  simp only [IndexSet.Simplices, Set.mem_ofPred_eq, coe_filter, mem_complex, List.mem_map, exists_exists_and_eq_and, verts]
  exact and_comm

theorem entities_eq (M : Mesh V d) (k : ℕ) : entities M k = ((complex M).filter fun S => S.card = k + 1).card := by
  unfold entities
  rw [simplices_eq, Set.ncard_coe_finset]

theorem card_verts_le (c : Fin (d + 1) → ℕ) : (verts c).card ≤ d + 1 := by
  unfold verts
  exact card_image_le.trans (by simp)

/-- The Euler number as a sum over all sets of vertices; the empty set contributes `-1` if there is an element. -/
theorem euler_eq (M : Mesh V d) : euler M = ∑ S ∈ (complex M).filter (fun S => S.Nonempty), (-1 : ℤ) ^ (S.card + 1) := by
  unfold euler
  rw [← Finset.sum_fiberwise_of_maps_to (s := (complex M).filter fun S => S.Nonempty) (t := range (d + 1)) (g := fun S => S.card - 1)]
  · refine Finset.sum_congr rfl fun k _ => ?_
    rw [entities_eq, filter_filter]
    have hf : (complex M).filter (fun S => S.Nonempty ∧ S.card - 1 = k) = (complex M).filter fun S => S.card = k + 1 := by
      refine filter_congr fun S _ => ?_
      rw [← card_pos]
      omega
    rw [hf, Finset.sum_congr rfl (g := fun _ => (-1 : ℤ) ^ k)]
    · rw [sum_const, nsmul_eq_mul]
      ring
    · intro S hS
      rw [(mem_filter.1 hS).2]
      ring
  · intro S hS
    obtain ⟨hS1, hS2⟩ := mem_filter.1 hS
    obtain ⟨c, -, hc⟩ := mem_complex.1 hS1
    have h1 := (card_le_card hc).trans (card_verts_le c)
    have h2 := card_pos.2 hS2
    rw [mem_range]
    omega

/-- The sets of vertices after an insertion. -/
theorem mem_complex_insertAt {M : Mesh V d} {F : Finset ℕ} {m : ℕ} {x : V} (hinj : ∀ c ∈ M.cells, Function.Injective c) (hm : Fresh M m) {S : Finset ℕ} :
    S ∈ complex (insertAt M F m x) ↔ (S ∈ complex M ∧ ¬ F ⊆ S) ∨ (m ∈ S ∧ ¬ F ⊆ S.erase m ∧ S.erase m ∪ F ∈ complex M) := by
  have hmv : ∀ c ∈ M.cells, m ∉ verts c := fun c hc h => by
    obtain ⟨i, hi⟩ := mem_verts.1 h
    exact hm c hc i hi
  constructor
  · intro h
    obtain ⟨c', hc', hS⟩ := mem_complex.1 h
    obtain ⟨c, hc, ⟨hF, rfl⟩ | ⟨hF, i, hi, rfl⟩⟩ := mem_insertAt.1 hc'
    · exact Or.inl ⟨mem_complex.2 ⟨c', hc, hS⟩, fun h => hF (h.trans hS)⟩
    · rw [verts_update (hinj c hc)] at hS
      by_cases hmS : m ∈ S
      · have hT : S.erase m ⊆ (verts c).erase (c i) := fun v hv => by
          obtain ⟨h1, h2⟩ := mem_erase.1 hv
          exact (mem_insert.1 (hS h2)).resolve_left h1
        exact Or.inr ⟨hmS, fun h => (mem_erase.1 (hT (h hi))).1 rfl, mem_complex.2 ⟨c, hc, union_subset (hT.trans (erase_subset _ _)) hF⟩⟩
      · have hT : S ⊆ (verts c).erase (c i) := fun v hv => by
          refine (mem_insert.1 (hS hv)).resolve_left ?_
          rintro rfl
          exact hmS hv
        exact Or.inl ⟨mem_complex.2 ⟨c, hc, hT.trans (erase_subset _ _)⟩, fun h => (mem_erase.1 (hT (h hi))).1 rfl⟩
  · rintro (⟨h, hF⟩ | ⟨hmS, hF, h⟩)
    · obtain ⟨c, hc, hS⟩ := mem_complex.1 h
      by_cases hFc : F ⊆ verts c
      · obtain ⟨v, hv, hvS⟩ := not_subset.1 hF
        obtain ⟨i, rfl⟩ := mem_verts.1 (hFc hv)
        refine mem_complex.2 ⟨_, mem_insertAt.2 ⟨c, hc, Or.inr ⟨hFc, i, hv, rfl⟩⟩, fun u hu => ?_⟩
        rw [verts_update (hinj c hc)]
        refine mem_insert_of_mem (mem_erase.2 ⟨?_, hS hu⟩)
        rintro rfl
        exact hvS hu
      · exact mem_complex.2 ⟨c, mem_insertAt.2 ⟨c, hc, Or.inl ⟨hFc, rfl⟩⟩, hS⟩
    · obtain ⟨c, hc, hS⟩ := mem_complex.1 h
      obtain ⟨v, hv, hvS⟩ := not_subset.1 hF
      have hFc : F ⊆ verts c := subset_union_right.trans hS
      obtain ⟨i, rfl⟩ := mem_verts.1 (hFc hv)
      refine mem_complex.2 ⟨_, mem_insertAt.2 ⟨c, hc, Or.inr ⟨hFc, i, hv, rfl⟩⟩, fun u hu => ?_⟩
      rw [verts_update (hinj c hc)]
      by_cases hum : u = m
      · exact mem_insert.2 (Or.inl hum)
      · refine mem_insert_of_mem (mem_erase.2 ⟨?_, hS (mem_union_left _ (mem_erase.2 ⟨hum, hu⟩))⟩)
        rintro rfl
        exact hvS (mem_erase.2 ⟨hum, hu⟩)

theorem not_mem_complex {M : Mesh V d} {m : ℕ} (hm : Fresh M m) {S : Finset ℕ} (hS : S ∈ complex M) : m ∉ S := fun h => by
  obtain ⟨c, hc, hc'⟩ := mem_complex.1 hS
  obtain ⟨i, hi⟩ := mem_verts.1 (hc' h)
  exact hm c hc i hi

/-- The sets that make an element together with `F`. -/
def around (M : Mesh V d) (F : Finset ℕ) : Finset (Finset ℕ) := (complex M).filter fun T => T ∪ F ∈ complex M

theorem mem_around {M : Mesh V d} {F T : Finset ℕ} : T ∈ around M F ↔ T ∪ F ∈ complex M := by
  unfold around
  rw [mem_filter]
  refine ⟨fun h => h.2, fun h => ⟨?_, h⟩⟩
  obtain ⟨c, hc, hS⟩ := mem_complex.1 h
  exact mem_complex.2 ⟨c, hc, subset_union_left.trans hS⟩

theorem complex_insertAt {M : Mesh V d} {F : Finset ℕ} {m : ℕ} {x : V} (hinj : ∀ c ∈ M.cells, Function.Injective c) (hm : Fresh M m) :
    complex (insertAt M F m x) = ((complex M).filter fun S => ¬ F ⊆ S) ∪ ((around M F).filter fun T => ¬ F ⊆ T).image (insert m) := by
  ext S
  rw [mem_complex_insertAt hinj hm, mem_union, mem_filter, mem_image]
  refine or_congr Iff.rfl ⟨?_, ?_⟩
  · rintro ⟨h1, h2, h3⟩
    exact ⟨S.erase m, mem_filter.2 ⟨mem_around.2 h3, h2⟩, insert_erase h1⟩
  · rintro ⟨T, hT, rfl⟩
    obtain ⟨h1, h2⟩ := mem_filter.1 hT
    have hmT : m ∉ T := fun h => not_mem_complex hm (mem_around.1 h1) (mem_union_left _ h)
    rw [erase_insert hmT]
    exact ⟨mem_insert_self _ _, h2, mem_around.1 h1⟩

/-- The sum of any function over the sets after an insertion. -/
theorem sum_insertAt {M : Mesh V d} {F : Finset ℕ} {m : ℕ} {x : V} (hinj : ∀ c ∈ M.cells, Function.Injective c) (hm : Fresh M m) (f : ℕ → ℤ) :
    ∑ S ∈ complex (insertAt M F m x), f S.card =
      ∑ S ∈ (complex M).filter (fun S => ¬ F ⊆ S), f S.card + ∑ T ∈ (around M F).filter (fun T => ¬ F ⊆ T), f (T.card + 1) := by
  have hmT : ∀ T ∈ (around M F).filter (fun T => ¬ F ⊆ T), m ∉ T := fun T hT h =>
    not_mem_complex hm (mem_around.1 (mem_filter.1 hT).1) (mem_union_left _ h)
  rw [complex_insertAt hinj hm, sum_union, sum_image]
  · refine congrArg₂ _ rfl (Finset.sum_congr rfl fun T hT => ?_)
    rw [card_insert_of_notMem (hmT T hT)]
  · intro T hT T' hT' he
    rw [← erase_insert (hmT T hT), ← erase_insert (hmT T' hT')]
    exact congrArg (fun S => S.erase m) he
  · rw [disjoint_left]
    intro S hS hS'
    obtain ⟨T, -, rfl⟩ := mem_image.1 hS'
    exact not_mem_complex hm (mem_filter.1 hS).1 (mem_insert_self _ _)

/-- Adding and removing a vertex of `F` changes the sign. -/
theorem sum_around {M : Mesh V d} {F : Finset ℕ} (hF : F.Nonempty) : ∑ T ∈ around M F, (-1 : ℤ) ^ T.card = 0 := by
  obtain ⟨a, ha⟩ := hF
  refine Finset.sum_involution (fun T _ => if a ∈ T then T.erase a else insert a T) ?_ ?_ ?_ ?_
  · intro T _
    by_cases h : a ∈ T
    · simp only [h, if_true]
      rw [← card_erase_add_one h]
      ring
    · simp only [h, if_false]
      rw [card_insert_of_notMem h]
      ring
  · intro T _ _
    by_cases h : a ∈ T
    · simp only [h, if_true]
      exact fun he => by rw [← he] at h; simp at h
    · simp only [h, if_false]
      exact fun he => h (by rw [← he]; simp)
  · intro T hT
    rw [mem_around] at hT ⊢
    by_cases h : a ∈ T
    · simp only [h, if_true]
      rwa [show T.erase a ∪ F = T ∪ F from ?_]
      ext v
      simp only [mem_union, mem_erase]
      by_cases hv : v = a
      · subst hv; simp [ha]
      · simp [hv]
    · simp only [h, if_false]
      rwa [insert_union, insert_eq_of_mem (mem_union_right _ ha)]
  · intro T _
    by_cases h : a ∈ T
    · simp [h, insert_erase]
    · simp [h]

theorem sum_complex (M : Mesh V d) : ∑ S ∈ complex M, (-1 : ℤ) ^ (S.card + 1) = euler M + if M.cells = [] then 0 else -1 := by
  rw [euler_eq, ← sum_filter_add_sum_filter_not (complex M) fun S => S.Nonempty]
  congr 1
  by_cases h : M.cells = []
  · simp [h, complex]
  · obtain ⟨c, hc⟩ := List.exists_mem_of_ne_nil _ h
    have : (complex M).filter (fun S => ¬ S.Nonempty) = {∅} := by
      ext S
      simp only [mem_filter, not_nonempty_iff_eq_empty, mem_singleton, mem_complex]
      exact ⟨fun h => h.2, fun h => ⟨⟨c, hc, by simp [h]⟩, h⟩⟩
    rw [this, sum_singleton, if_neg h]
    simp

/-- **C225** Inserting a vertex into an edge, a triangle or a tetrahedron does not change the Euler number, in every dimension; this is also true of the interface grid, which may contain the edge or
not. -/
theorem C225_insert {M : Mesh V d} {F : Finset ℕ} {m : ℕ} (x : V) (hinj : ∀ c ∈ M.cells, Function.Injective c) (hF : F.Nonempty) (hm : Fresh M m) :
    euler (insertAt M F m x) = euler M := by
  have h1 := sum_insertAt (x := x) (F := F) hinj hm fun n => (-1 : ℤ) ^ (n + 1)
  have h2 := sum_filter_add_sum_filter_not (complex M) (fun S => F ⊆ S) fun S => (-1 : ℤ) ^ (S.card + 1)
  have h3 := sum_filter_add_sum_filter_not (around M F) (fun S => F ⊆ S) fun S => (-1 : ℤ) ^ S.card
  rw [sum_around hF] at h3
  have h4 : (around M F).filter (fun T => F ⊆ T) = (complex M).filter fun T => F ⊆ T := by
    ext T
    simp only [mem_filter, mem_around]
    exact and_congr_left fun h => by rw [union_eq_left.2 h]
  rw [h4] at h3
  have h5 : ∑ S ∈ (complex M).filter (fun S => F ⊆ S), (-1 : ℤ) ^ (S.card + 1) = - ∑ S ∈ (complex M).filter (fun S => F ⊆ S), (-1 : ℤ) ^ S.card := by
    rw [← Finset.sum_neg_distrib]
    exact Finset.sum_congr rfl fun S _ => by ring
  have h6 : ∑ T ∈ (around M F).filter (fun T => ¬ F ⊆ T), (-1 : ℤ) ^ (T.card + 1 + 1) = ∑ T ∈ (around M F).filter (fun T => ¬ F ⊆ T), (-1 : ℤ) ^ T.card :=
    Finset.sum_congr rfl fun S _ => by ring
  rw [h6, sum_complex] at h1
  rw [sum_complex] at h2
  have h7 : (insertAt M F m x).cells = [] ↔ M.cells = [] := by
    constructor
    · intro h
      by_contra hne
      obtain ⟨c, hc⟩ := List.exists_mem_of_ne_nil _ hne
      obtain ⟨v, hv⟩ := hF
      by_cases hFc : F ⊆ verts c
      · obtain ⟨i, rfl⟩ := mem_verts.1 (hFc hv)
        have : Function.update c i m ∈ (insertAt M F m x).cells := mem_insertAt.2 ⟨c, hc, Or.inr ⟨hFc, i, hv, rfl⟩⟩
        rw [h] at this
        simp at this
      · have : c ∈ (insertAt M F m x).cells := mem_insertAt.2 ⟨c, hc, Or.inl ⟨hFc, rfl⟩⟩
        rw [h] at this
        simp at this
    · intro h
      simp [insertAt, h]
  simp only [h7] at h1
  linarith

/-- **C225** The number of vertices grows by one. -/
theorem C225_vertices {M : Mesh V d} {F : Finset ℕ} {m : ℕ} (x : V) (hinj : ∀ c ∈ M.cells, Function.Injective c) (hF : 2 ≤ F.card) (hm : Fresh M m)
    (hc : ∃ c ∈ M.cells, F ⊆ univ.image c) : entities (insertAt M F m x) 0 = entities M 0 + 1 := by
  have h1 := sum_insertAt (x := x) (F := F) hinj hm fun n => if n = 1 then 1 else 0
  simp only [← Finset.sum_filter, Finset.sum_const, nsmul_eq_mul, mul_one] at h1
  rw [filter_filter, filter_filter] at h1
  have h2 : (complex M).filter (fun S => ¬ F ⊆ S ∧ S.card = 1) = (complex M).filter fun S => S.card = 0 + 1 := by
    refine filter_congr fun S _ => ⟨fun h => h.2, fun h => ⟨fun hs => ?_, h⟩⟩
    have := card_le_card hs
    omega
  have h3 : (around M F).filter (fun T => ¬ F ⊆ T ∧ T.card + 1 = 1) = {∅} := by
    ext T
    simp only [mem_filter, mem_around, mem_singleton]
    constructor
    · rintro ⟨-, -, h⟩
      exact card_eq_zero.1 (by omega)
    · rintro rfl
      obtain ⟨c, hc, hFc⟩ := hc
      refine ⟨by rw [empty_union]; exact mem_complex.2 ⟨c, hc, hFc⟩, fun h => ?_, by simp⟩
      have := card_le_card h
      rw [card_empty] at this
      omega
  rw [h2, h3, card_singleton] at h1
  rw [entities_eq, entities_eq]
  exact_mod_cast h1

/-- **C225** Every element that contains the edge is replaced by two elements. -/
theorem C225_elements {M : Mesh V d} {a b m : ℕ} (x : V) (hinj : ∀ c ∈ M.cells, Function.Injective c) (hab : a ≠ b) :
    (insertAt M {a, b} m x).cells.length = M.cells.length + M.cells.countP fun c => decide (({a, b} : Finset ℕ) ⊆ univ.image c) := by
  have key : ∀ L : List (Fin (d + 1) → ℕ), (∀ c ∈ L, Function.Injective c) →
      (L.flatMap (splitCell {a, b} m)).length = L.length + L.countP fun c => decide (({a, b} : Finset ℕ) ⊆ univ.image c) := by
    intro L
    induction L with
    | nil => simp
    | cons c L ih =>
      intro h
      rw [List.flatMap_cons, List.length_append, ih fun c' h' => h c' (by simp [h']), List.length_cons, List.countP_cons]
      unfold splitCell
      by_cases hF : ({a, b} : Finset ℕ) ⊆ univ.image c
      · rw [if_pos hF, if_pos (by simpa using hF), List.length_map]
        have hc := h c (by simp)
        obtain ⟨i, hi⟩ : ∃ i, c i = a := mem_verts.1 (hF (by simp))
        obtain ⟨j, hj⟩ : ∃ j, c j = b := mem_verts.1 (hF (by simp))
        have hij : i ≠ j := by
          rintro rfl
          exact hab (hi ▸ hj)
        have hlen : ((List.finRange (d + 1)).filter fun k => c k ∈ ({a, b} : Finset ℕ)).length = 2 := by
          have hnd : ((List.finRange (d + 1)).filter fun k => c k ∈ ({a, b} : Finset ℕ)).Nodup := (List.nodup_finRange _).filter _
          rw [← List.toFinset_card_of_nodup hnd, ← card_pair hij]
          congr 1
          ext k
          simp only [List.mem_toFinset, List.mem_filter, List.mem_finRange, true_and, decide_eq_true_eq, mem_insert, mem_singleton]
          rw [← hi, ← hj]
          exact or_congr hc.eq_iff hc.eq_iff
        rw [hlen]
        omega
      · rw [if_neg hF, if_neg (by simpa using hF)]
        simp
        omega
  exact key M.cells hinj

/-- Adding an element at a facet of the boundary. -/
theorem euler_outside {M : Mesh V d} (hd : 0 < d) {c : Fin (d + 1) → ℕ} (hinj : ∀ c ∈ M.cells, Function.Injective c) (hc : c ∈ M.cells) {i : Fin (d + 1)} {m : ℕ} (hm : Fresh M m)
    (c' : Fin (d + 1) → ℕ) (hc' : verts c' = insert m ((verts c).erase (c i))) (pos : ℕ → V) : euler (⟨c' :: M.cells, pos⟩ : Mesh V d) = euler M := by
  have hmv : m ∉ (verts c).erase (c i) := fun h => by
    obtain ⟨j, hj⟩ := mem_verts.1 (mem_of_mem_erase h)
    exact hm c hc j hj
  have hcx : complex (⟨c' :: M.cells, pos⟩ : Mesh V d) = complex M ∪ ((verts c).erase (c i)).powerset.image (insert m) := by
    ext S
    rw [mem_union, mem_image, mem_complex, mem_complex]
    simp only [List.mem_cons, exists_eq_or_imp, mem_powerset, hc']
    constructor
    · rintro (h | h)
      · by_cases hmS : m ∈ S
        · refine Or.inr ⟨S.erase m, fun v hv => ?_, insert_erase hmS⟩
          obtain ⟨h1, h2⟩ := mem_erase.1 hv
          exact (mem_insert.1 (h h2)).resolve_left h1
        · refine Or.inl ⟨c, hc, fun v hv => mem_of_mem_erase ((mem_insert.1 (h hv)).resolve_left ?_)⟩
          rintro rfl
          exact hmS hv
      · exact Or.inl h
    · rintro (h | ⟨T, hT, rfl⟩)
      · exact Or.inr h
      · exact Or.inl (insert_subset_insert _ hT)
  have h1 := sum_complex (⟨c' :: M.cells, pos⟩ : Mesh V d)
  have h2 := sum_complex M
  have hmT : ∀ T ∈ ((verts c).erase (c i)).powerset, m ∉ T := fun T hT h => hmv (mem_powerset.1 hT h)
  rw [hcx, sum_union, sum_image] at h1
  · have h3 : ∑ T ∈ ((verts c).erase (c i)).powerset, (-1 : ℤ) ^ ((insert m T).card + 1) = 0 := by
      have hne : ((verts c).erase (c i)).Nonempty := by
        rw [← card_pos, card_erase_of_mem (mem_verts.2 ⟨i, rfl⟩), verts, card_image_of_injective _ (hinj c hc), card_univ, Fintype.card_fin]
        omega
      have h4 : ∑ T ∈ ((verts c).erase (c i)).powerset, (-1 : ℤ) ^ T.card = 0 := by
        rw [Finset.sum_powerset_neg_one_pow_card, if_neg hne.ne_empty]
      rw [← h4]
      refine Finset.sum_congr rfl fun T hT => ?_
      rw [card_insert_of_notMem (hmT T hT)]
      ring
    rw [h3, h2] at h1
    rw [if_neg (List.ne_nil_of_mem hc)] at h1
    simp at h1
    linarith
  · intro T hT T' hT' he
    rw [← erase_insert (hmT T hT), ← erase_insert (hmT T' hT')]
    exact congrArg (fun S => S.erase m) he
  · rw [disjoint_left]
    intro S hS hS'
    obtain ⟨T, -, rfl⟩ := mem_image.1 hS'
    exact not_mem_complex hm hS (mem_insert_self _ _)

theorem verts_comp_swap (c : Fin (d + 1) → ℕ) (e : Equiv.Perm (Fin (d + 1))) : verts (c ∘ e) = verts c := by
  ext v
  simp only [mem_verts, Function.comp]
  exact ⟨fun ⟨i, h⟩ => ⟨e i, h⟩, fun ⟨i, h⟩ => ⟨e.symm i, by simpa using h⟩⟩

/-- **C225** Whatever requests of refinement are made, at whatever points, and whichever of them are carried out or dropped: the Euler number of the grid does not change. Also vertices inserted
outside of the grid do not change it. -/
theorem C225_adapt (hd : 0 < d) {M M' : Mesh V d} {rs : List (Req V)} (hinj : ∀ c ∈ M.cells, Function.Injective c) (h : Run K M rs M') : euler M' = euler M := by
  induction h with
  | nil => rfl
  | @cons M M1 M2 r rs hs _ ih =>
    have key : euler M1 = euler M ∧ ∀ c ∈ M1.cells, Function.Injective c := by
      cases hs with
      | dropped => exact ⟨rfl, hinj⟩
      | edge hc hab ha hb hm =>
        refine ⟨C225_insert _ hinj ⟨_, mem_insert_self _ _⟩ hm, fun c' hc' => ?_⟩
        obtain ⟨c, hc, ⟨-, rfl⟩ | ⟨-, i, -, rfl⟩⟩ := mem_insertAt.1 hc'
        · exact hinj _ hc
        · exact injective_update (hinj c hc) (fun j => hm c hc j) i
      | cell hc hx hm =>
        refine ⟨C225_insert _ hinj ⟨_, mem_image.2 ⟨0, mem_univ _, rfl⟩⟩ hm, fun c' hc' => ?_⟩
        obtain ⟨c, hc, ⟨-, rfl⟩ | ⟨-, i, -, rfl⟩⟩ := mem_insertAt.1 hc'
        · exact hinj _ hc
        · exact injective_update (hinj c hc) (fun j => hm c hc j) i
      | @outside x m c i hc hx hu hm =>
        refine ⟨euler_outside hd (i := i) hinj hc hm _ ?_ _, fun c' hc' => ?_⟩
        · rw [verts_comp_swap, verts_update (hinj c hc)]
        · rcases List.mem_cons.1 hc' with rfl | hc'
          · exact (injective_update (hinj c hc) (fun j => hm c hc j) i).comp (Equiv.injective _)
          · exact hinj c' hc'
    rw [ih key.2, key.1]

/-- **C225** If all requests for edges are carried out, the number of vertices grows by the number of requests. -/
theorem C225_requests {M M' : Mesh V d} {rs : List (Req V)} (hinj : ∀ c ∈ M.cells, Function.Injective c) (h : Carried M rs M') : entities M' 0 = entities M 0 + rs.length := by
  induction h with
  | nil => rfl
  | @cons M M' a b x m c rs hc hab ha hb hm _ ih =>
    rw [ih, C225_vertices x hinj (by rw [card_pair hab]) hm, List.length_cons]
    · omega
    · refine ⟨c, hc, fun v hv => ?_⟩
      simp only [mem_insert, mem_singleton] at hv
      rcases hv with rfl | rfl
      · exact mem_verts.2 ha
      · exact mem_verts.2 hb
    · intro c' hc'
      obtain ⟨c, hc, ⟨-, rfl⟩ | ⟨-, i, -, rfl⟩⟩ := mem_insertAt.1 hc'
      · exact hinj _ hc
      · exact injective_update (hinj c hc) (fun j => hm c hc j) i

/-- **C225** In 2D the number of edges is determined by the others: it grows by one plus the number of new elements. -/
theorem C225_edges {M : Mesh V 2} {a b m : ℕ} (x : V) (hinj : ∀ c ∈ M.cells, Function.Injective c) (hab : a ≠ b) (hm : Fresh M m) (hc : ∃ c ∈ M.cells, ({a, b} : Finset ℕ) ⊆ univ.image c) :
    (entities (insertAt M {a, b} m x) 1 : ℤ) = entities M 1 + 1 + (entities (insertAt M {a, b} m x) 2 - entities M 2) := by
  have h1 := C225_insert x hinj ⟨a, mem_insert_self a {b}⟩ hm
  have h2 := C225_vertices x hinj (by rw [card_pair hab]) hm hc
  unfold euler at h1
  simp only [sum_range_succ, range_zero, sum_empty] at h1
  rw [h2] at h1
  push_cast at h1
  linarith

/-! ## Examples -/

/-- Two triangles with a common edge have the Euler number 4 - 5 + 2 = 1; after halving the common edge there are 5 vertices, 8 edges and 4 triangles. -/
def twoTriangles : Mesh (Fin 2 → ℚ) 2 := ⟨[![0, 1, 2], ![1, 3, 2]], fun _ => 0⟩

example : entities twoTriangles 0 = 4 ∧ entities twoTriangles 1 = 5 ∧ entities twoTriangles 2 = 2 := by
  rw [entities_eq, entities_eq, entities_eq]
  decide +kernel

example : entities (insertAt twoTriangles {1, 2} 4 0) 0 = 5 ∧ entities (insertAt twoTriangles {1, 2} 4 0) 1 = 8 ∧ entities (insertAt twoTriangles {1, 2} 4 0) 2 = 4 := by
  rw [entities_eq, entities_eq, entities_eq]
  decide +kernel

example : (∀ c ∈ twoTriangles.cells, Function.Injective c) ∧ Fresh twoTriangles 4 ∧ ∃ c ∈ twoTriangles.cells, ({1, 2} : Finset ℕ) ⊆ univ.image c := by
  unfold Fresh
  decide

/-- One request that is carried out, and one that is dropped because the edge does not exist any more. -/
example : Carried twoTriangles [⟨some (1, 2), 0⟩] (insertAt twoTriangles {1, 2} 4 0) :=
  .cons (c := ![0, 1, 2]) (by decide) (by decide) ⟨1, rfl⟩ ⟨2, rfl⟩ (by unfold Fresh; decide) .nil

example : Run ℚ twoTriangles [⟨some (1, 2), 0⟩, ⟨some (2, 1), 0⟩] (insertAt twoTriangles {1, 2} 4 0) :=
  .cons (.edge (c := ![0, 1, 2]) (by decide) (by decide) ⟨1, rfl⟩ ⟨2, rfl⟩ (by unfold Fresh; decide)) (.cons .dropped .nil)

end Verif.Refine
