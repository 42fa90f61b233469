import Verif.RefElem.Model
import Mathlib.Tactic.FinCases
import Mathlib.Algebra.Group.Fin.Basic
import Mathlib.Tactic.LinearCombination
import Mathlib.Data.List.OfFn
import Mathlib.Algebra.BigOperators.Intervals

namespace Verif.RefElem

open Finset

theorem foldl_update_mem {n : ℕ} (c : Equiv.Perm (Fin n)) :
    ∀ (l : List (Fin n)) (acc : Fin n → Fin n) (k : Fin n), l.Nodup →
      (l.foldl (fun acc k => Function.update acc (c k) k) acc) (c k)
        = if k ∈ l then k else acc (c k) := by
  intro l
  induction l with
  | nil => intro acc k _; simp
  | cons a t ih =>
    intro acc k hnd
    rw [List.foldl_cons, ih _ _ (List.nodup_cons.1 hnd).2]
    by_cases h : k = a
    · subst h
      simp [(List.nodup_cons.1 hnd).1]
    · have : c k ≠ c a := fun h' => h (c.injective h')
      simp [h, Function.update_of_ne this]

theorem invertIndex_perm {n : ℕ} (c : Equiv.Perm (Fin n)) (s : Fin n) :
    invertIndex c s = c.symm s := by
  have := foldl_update_mem c (List.finRange n) c (c.symm s) (List.nodup_finRange n)
  simpa [invertIndex] using this

theorem sum_facet_add {d : ℕ} (c : Equiv.Perm (Fin (d + 1))) (f : Fin (d + 1)) :
    (c (Fin.rev f)).val + duneFacetSum d c f = ∑ i : Fin (d + 1), i.val := by
  unfold duneFacetSum refFacet
  rw [← Fin.sum_univ_succAbove (fun i => (c i).val) (Fin.rev f)]
  exact Equiv.sum_comp c (fun i => i.val)

theorem sum_cgal_add {d : ℕ} (c : Equiv.Perm (Fin (d + 1))) (i : Fin (d + 1)) :
    (c.symm i).val + cgalFacetSum d c i = ∑ i : Fin (d + 1), i.val := by
  unfold cgalFacetSum
  simp only [invertIndex_perm]
  rw [← Equiv.sum_comp c.symm (fun i => i.val),
    ← Equiv.sum_comp (Equiv.addLeft i) (fun i => (c.symm i).val), Fin.sum_univ_succ]
  simp

theorem second_eq {d : ℕ} (hd : d = 2 ∨ d = 3) (c : Equiv.Perm (Fin (d + 1))) (f : Fin (d + 1)) :
    duneFacetToCgalSecond d c f = (c (Fin.rev f)).val := by
  have h := sum_facet_add c f
  change (if d = 2 then 3 else 6) - duneFacetSum d c f = _
  rcases hd with rfl | rfl
  · have e : ∑ i : Fin (2 + 1), i.val = 3 := by decide
    rw [e] at h
    simp only [if_true]; omega
  · have e : ∑ i : Fin (3 + 1), i.val = 6 := by decide
    rw [e] at h
    simp only [if_neg (by decide : ¬ (3 : ℕ) = 2)]; omega

theorem dune_eq {d : ℕ} (hd : d = 2 ∨ d = 3) (c : Equiv.Perm (Fin (d + 1))) (i : Fin (d + 1)) :
    cgalFacetToDuneFacet d c i = (Fin.rev (c.symm i)).val := by
  have h := sum_cgal_add c i
  have hl := (c.symm i).isLt
  unfold cgalFacetToDuneFacet
  rw [Fin.val_rev]
  rcases hd with rfl | rfl
  · have e : ∑ i : Fin (2 + 1), i.val = 3 := by decide
    rw [e] at h
    simp only [if_true]; omega
  · have e : ∑ i : Fin (3 + 1), i.val = 6 := by decide
    rw [e] at h
    simp only [if_neg (by decide : ¬ (3 : ℕ) = 2)]; omega

theorem facetVertexSlot_eq {d : ℕ} (hd : d = 2 ∨ d = 3) (ids : Fin (d + 1) → ℕ) (c : Equiv.Perm (Fin (d + 1)))
    (s : Fin (d + 1)) (k : Fin d) :
    facetVertexSlot ⟨ids, c⟩ s k = some (c ((c.symm s).succAbove k)) := by
  unfold facetVertexSlot
  simp only [dune_eq hd, Fin.is_lt, dif_pos, refFacet, Fin.eta, Fin.rev_rev]

theorem elementFacetSlot_eq {d : ℕ} (hd : d = 2 ∨ d = 3) (ids : Fin (d + 1) → ℕ)
    (c : Equiv.Perm (Fin (d + 1))) (f : Fin (d + 1)) :
    elementFacetSlot ⟨ids, c⟩ f = some (c (Fin.rev f)) := by
  unfold elementFacetSlot
  simp only [second_eq hd, Fin.is_lt, dif_pos, Fin.eta]

theorem mapM_some {α β : Type*} (f : α → β) (l : List α) :
    l.mapM (fun a => some (f a)) = some (l.map f) := by
  induction l with
  | nil => rfl
  | cons a t ih => simp [ih]

theorem facetId_eq {d : ℕ} (hd : d = 2 ∨ d = 3) (ids : Fin (d + 1) → ℕ) (c : Equiv.Perm (Fin (d + 1)))
    (s : Fin (d + 1)) :
    facetId ⟨ids, c⟩ s
      = some (sortIds ((List.finRange d).map (fun k => ids (c ((c.symm s).succAbove k))))) := by
  unfold facetId
  simp [facetVertexSlot_eq hd, mapM_some]

/-! sorting -/

theorem sortIds_perm (l : List ℕ) : (sortIds l).Perm l := List.perm_insertionSort _ l

theorem sortIds_sorted (l : List ℕ) : (sortIds l).Pairwise (· ≤ ·) := List.pairwise_insertionSort (· ≤ ·) l

theorem sortIds_strict {l : List ℕ} (h : l.Nodup) : (sortIds l).Pairwise (· < ·) := by
  have h1 := sortIds_sorted l
  have h2 : (sortIds l).Nodup := (sortIds_perm l).nodup_iff.2 h
  rw [List.Nodup] at h2
  exact (h1.and h2).imp (fun {a b} h => by omega)

theorem sorted_ext {l₁ l₂ : List ℕ} (h₁ : l₁.Pairwise (· < ·)) (h₂ : l₂.Pairwise (· < ·))
    (h : ∀ x, x ∈ l₁ ↔ x ∈ l₂) : l₁ = l₂ := by
  have n1 : l₁.Nodup := h₁.imp (fun {a b} h => by omega)
  have n2 : l₂.Nodup := h₂.imp (fun {a b} h => by omega)
  have hp : l₁.Perm l₂ := (List.perm_ext_iff_of_nodup n1 n2).2 h
  exact hp.eq_of_pairwise (le := (· ≤ ·)) (fun a b _ _ h1 h2 => by omega)
    (h₁.imp (fun {a b} h => by omega)) (h₂.imp (fun {a b} h => by omega))

theorem sortIds_of_strict {l : List ℕ} (h : l.Pairwise (· < ·)) : sortIds l = l := by
  have n1 : l.Nodup := h.imp (fun {a b} h => by omega)
  exact sorted_ext (sortIds_strict n1) h (fun x => (sortIds_perm l).mem_iff)

theorem cgal_strictMono {n : ℕ} {ids : Fin n → ℕ} (h : Function.Injective ids) :
    StrictMono (ids ∘ computeCGALIndices ids) :=
  (Tuple.monotone_sort ids).strictMono_of_injective (h.comp (Equiv.injective _))

theorem map_finRange_strict {n : ℕ} {f : Fin n → ℕ} (h : StrictMono f) :
    ((List.finRange n).map f).Pairwise (· < ·) := by
  rw [List.pairwise_map]
  exact (List.pairwise_lt_finRange n).imp (fun {a b} hab => h hab)

theorem elementId_sorted {d : ℕ} {ids : Fin (d + 1) → ℕ} (h : Function.Injective ids)
    (c : Fin (d + 1) → Fin (d + 1)) :
    elementId ⟨ids, c⟩ = (List.finRange (d + 1)).map (ids ∘ computeCGALIndices ids) := by
  have hnd : ((List.finRange (d + 1)).map ids).Nodup := (List.nodup_finRange _).map h
  refine sorted_ext (sortIds_strict hnd) (map_finRange_strict (cgal_strictMono h)) (fun x => ?_)
  rw [elementId, (sortIds_perm _).mem_iff]
  simp only [List.mem_map, List.mem_finRange, true_and, Function.comp]
  constructor
  · rintro ⟨a, rfl⟩; exact ⟨(computeCGALIndices ids).symm a, by simp⟩
  · rintro ⟨a, rfl⟩; exact ⟨_, rfl⟩

theorem mem_facet_ids {d : ℕ} (ids : Fin (d + 1) → ℕ) (c : Equiv.Perm (Fin (d + 1))) (s : Fin (d + 1)) (x : ℕ) :
    x ∈ (List.finRange d).map (fun k => ids (c ((c.symm s).succAbove k))) ↔ ∃ t, t ≠ s ∧ ids t = x := by
  simp only [List.mem_map, List.mem_finRange, true_and]
  constructor
  · rintro ⟨k, rfl⟩
    refine ⟨_, fun h => ?_, rfl⟩
    have : (c.symm s).succAbove k = c.symm s := by
      rw [Equiv.eq_symm_apply]; exact h
    exact Fin.succAbove_ne _ _ this
  · rintro ⟨t, hts, rfl⟩
    have : c.symm t ≠ c.symm s := fun h => hts (c.symm.injective h)
    obtain ⟨k, hk⟩ := Fin.exists_succAbove_eq this
    exact ⟨k, by rw [hk]; simp⟩

theorem facet_ids_nodup {d : ℕ} {ids : Fin (d + 1) → ℕ} (h : Function.Injective ids)
    (c : Equiv.Perm (Fin (d + 1))) (s : Fin (d + 1)) :
    ((List.finRange d).map (fun k => ids (c ((c.symm s).succAbove k)))).Nodup :=
  (List.nodup_finRange _).map
    (fun _ _ hab => Fin.succAbove_right_injective (c.injective (h hab)))

/-- Edge conversions: all pairs of distinct slots and all permutations. -/
theorem edge_table : ∀ i j : Fin 4, i ≠ j →
    ∃ h : (if (if i > j then (j, i) else (i, j)).2 ≠ 3
        then (if i > j then (j, i) else (i, j)).1.val + (if i > j then (j, i) else (i, j)).2.val - 1
        else 3 + (if i > j then (j, i) else (i, j)).1.val) < 6,
      refEdgeVertex ⟨_, h⟩ 0 = min i j ∧ refEdgeVertex ⟨_, h⟩ 1 = max i j := by decide

theorem edge_eq (c : Equiv.Perm (Fin 4)) (i j : Fin 4) (hij : i ≠ j) :
    ∃ h : cgalEdgeToDuneEdge c i j < 6,
      refEdgeVertex ⟨_, h⟩ 0 = min (c.symm i) (c.symm j) ∧
      refEdgeVertex ⟨_, h⟩ 1 = max (c.symm i) (c.symm j) := by
  have := edge_table (c.symm i) (c.symm j) (fun h => hij (c.symm.injective h))
  unfold cgalEdgeToDuneEdge
  simp only [invertIndex_perm]
  exact this

theorem edge_dune (e : Fin 6) :
    (if (refEdgeVertex e 1) ≠ 3 then (refEdgeVertex e 0).val + (refEdgeVertex e 1).val - 1
      else 3 + (refEdgeVertex e 0).val) = e.val ∧ refEdgeVertex e 0 < refEdgeVertex e 1 := by
  revert e; decide

end Verif.RefElem
