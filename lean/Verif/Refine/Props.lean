import Verif.Refine.Model
import Mathlib.Tactic.Ring
import Mathlib.Tactic.Linarith
import Mathlib.Tactic.Module
import Mathlib.Tactic.FieldSimp

/-!
# Refinement keeps a conforming mesh of the same domain
-/

namespace Verif.Refine

open Finset

variable {K V : Type*} [Field K] [LinearOrder K] [IsStrictOrderedRing K] [AddCommGroup V] [Module K V] {d : ℕ}

/-! ## Specification -/

/-- A conforming mesh: no element is degenerate, and two elements have only points in common that lie in the face spanned by their common
vertices. In particular there are no hanging nodes and the interiors of different elements are disjoint. -/
structure Conforming (K : Type*) [Field K] [LinearOrder K] [Module K V] (M : Mesh V d) : Prop where
  nondegenerate : ∀ c ∈ M.cells, AffineIndependent K fun i => M.pos (c i)
  meet : ∀ c ∈ M.cells, ∀ c' ∈ M.cells, convexHull K (Set.range fun i => M.pos (c i)) ∩ convexHull K (Set.range fun i => M.pos (c' i)) ⊆
    convexHull K (M.pos '' (Set.range c ∩ Set.range c'))

/-- The points that belong to some element. -/
def domain (K : Type*) [Field K] [LinearOrder K] [Module K V] (M : Mesh V d) : Set V :=
  {x | ∃ c ∈ M.cells, x ∈ convexHull K (Set.range fun i => M.pos (c i))}

/-- The vertices of the mesh. -/
def vertices (M : Mesh V d) : Set ℕ := {v | ∃ c ∈ M.cells, ∃ i, c i = v}

/-! ## Barycentric coordinates -/

def verts (c : Fin (d + 1) → ℕ) : Finset ℕ := univ.image c

structure IsWeight (S : Finset ℕ) (w : ℕ → K) : Prop where
  nonneg : ∀ v, 0 ≤ w v
  off : ∀ v, v ∉ S → w v = 0
  sum : ∑ v ∈ S, w v = 1

theorem mem_verts {c : Fin (d + 1) → ℕ} {v : ℕ} : v ∈ verts c ↔ ∃ i, c i = v := by simp [verts]

theorem hull_finset (pos : ℕ → V) (S : Finset ℕ) (x : V) :
    x ∈ convexHull K (pos '' (S : Set ℕ)) ↔ ∃ w : ℕ → K, IsWeight S w ∧ ∑ v ∈ S, w v • pos v = x := by
  classical
  constructor
  · intro h
    have hr : pos '' (S : Set ℕ) = Set.range fun v : S => pos v := by
      ext y
      simp
    rw [hr, convexHull_range_eq_exists_affineCombination] at h
    obtain ⟨s, w, h0, h1, rfl⟩ := h
    rw [affineCombination_eq_linear_combination _ _ _ h1]
    refine ⟨fun v => if h : v ∈ S then (if (⟨v, h⟩ : S) ∈ s then w ⟨v, h⟩ else 0) else 0, ⟨?_, ?_, ?_⟩, ?_⟩
    · intro v
      beta_reduce
      split_ifs with a b
      · exact h0 _ b
      · rfl
      · rfl
    · intro v hv
      simp [hv]
    · rw [← h1, ← Finset.sum_coe_sort S]
      rw [← Finset.sum_subset (Finset.subset_univ s)]
      · apply Finset.sum_congr rfl
        intro v hv
        simp [hv]
      · intro v _ hv
        simp [hv]
    · rw [← Finset.sum_coe_sort S, ← Finset.sum_subset (Finset.subset_univ s)]
      · apply Finset.sum_congr rfl
        intro v hv
        simp [hv]
      · intro v _ hv
        simp [hv]
  · rintro ⟨w, hw, rfl⟩
    rw [← Finset.sum_coe_sort S]
    refine mem_convexHull_of_exists_fintype (fun v : S => w v) (fun v : S => pos v) (fun v => hw.nonneg v) ?_ ?_ rfl
    · rw [Finset.sum_coe_sort S, hw.sum]
    · intro v
      exact ⟨v, v.2, rfl⟩

theorem range_image (pos : ℕ → V) (c : Fin (d + 1) → ℕ) : (Set.range fun i => pos (c i)) = pos '' (verts c : Set ℕ) := by
  ext y
  simp [verts]

theorem hull_iff (pos : ℕ → V) (c : Fin (d + 1) → ℕ) (x : V) :
    x ∈ convexHull K (Set.range fun i => pos (c i)) ↔ ∃ w : ℕ → K, IsWeight (verts c) w ∧ ∑ v ∈ verts c, w v • pos v = x := by
  rw [range_image, hull_finset]

/-- Points have unique barycentric coordinates in the whole mesh. -/
def Unique (K : Type*) [Field K] [LinearOrder K] [Module K V] (M : Mesh V d) : Prop :=
  ∀ c ∈ M.cells, ∀ c' ∈ M.cells, ∀ w w' : ℕ → K, IsWeight (verts c) w → IsWeight (verts c') w' →
    ∑ v ∈ verts c, w v • M.pos v = ∑ v ∈ verts c', w' v • M.pos v → w = w'

theorem sum_verts {c : Fin (d + 1) → ℕ} (hc : Function.Injective c) {A : Type*} [AddCommMonoid A] (f : ℕ → A) :
    ∑ v ∈ verts c, f v = ∑ i, f (c i) := by
  rw [verts, Finset.sum_image fun a _ b _ h => hc h]

theorem weight_unique_of_indep {pos : ℕ → V} {c : Fin (d + 1) → ℕ} (hc : AffineIndependent K fun i => pos (c i)) {w w' : ℕ → K}
    (hw : IsWeight (verts c) w) (hw' : IsWeight (verts c) w') (h : ∑ v ∈ verts c, w v • pos v = ∑ v ∈ verts c, w' v • pos v) : w = w' := by
  have hinj : Function.Injective c := fun i j hij => hc.injective (by simp only [hij])
  funext v
  by_cases hv : v ∈ verts c
  · obtain ⟨i, rfl⟩ := mem_verts.1 hv
    have := affineIndependent_iff.1 hc univ (fun i => w (c i) - w' (c i)) (by
        rw [Finset.sum_sub_distrib, ← sum_verts hinj w, ← sum_verts hinj w', hw.sum, hw'.sum, sub_self]) (by
        simp only [sub_smul]
        rw [Finset.sum_sub_distrib, ← sum_verts hinj fun v => w v • pos v, ← sum_verts hinj fun v => w' v • pos v, h, sub_self]) i (mem_univ i)
    exact sub_eq_zero.1 this
  · rw [hw.off v hv, hw'.off v hv]

theorem Conforming.unique {M : Mesh V d} (h : Conforming K M) : Unique K M := by
  intro c hc c' hc' w w' hw hw' heq
  have hx : ∑ v ∈ verts c, w v • M.pos v ∈ convexHull K (M.pos '' (Set.range c ∩ Set.range c')) :=
    h.meet c hc c' hc' ⟨(hull_iff _ _ _).2 ⟨w, hw, rfl⟩, (hull_iff _ _ _).2 ⟨w', hw', heq.symm⟩⟩
  have hs : Set.range c ∩ Set.range c' = ((verts c ∩ verts c' : Finset ℕ) : Set ℕ) := by
    ext v
    simp [verts]
  rw [hs, hull_finset] at hx
  obtain ⟨u, hu, hux⟩ := hx
  have ext : ∀ S : Finset ℕ, verts c ∩ verts c' ⊆ S → IsWeight S u ∧ ∑ v ∈ S, u v • M.pos v = ∑ v ∈ verts c, w v • M.pos v := by
    intro S hS
    refine ⟨⟨hu.nonneg, fun v hv => hu.off v fun h => hv (hS h), ?_⟩, ?_⟩
    · rw [← hu.sum]
      exact (Finset.sum_subset hS fun v _ hv => hu.off v hv).symm
    · rw [← hux]
      exact (Finset.sum_subset hS fun v _ hv => by rw [hu.off v hv, zero_smul]).symm
  obtain ⟨u1, e1⟩ := ext (verts c) Finset.inter_subset_left
  obtain ⟨u2, e2⟩ := ext (verts c') Finset.inter_subset_right
  rw [weight_unique_of_indep (h.nondegenerate c hc) hw u1 e1.symm, weight_unique_of_indep (h.nondegenerate c' hc') hw' u2 (by rw [e2, heq])]

theorem indep_of_unique {pos : ℕ → V} {c : Fin (d + 1) → ℕ} (hinj : Function.Injective c)
    (h : ∀ w w' : ℕ → K, IsWeight (verts c) w → IsWeight (verts c) w' →
      ∑ v ∈ verts c, w v • pos v = ∑ v ∈ verts c, w' v • pos v → w = w') : AffineIndependent K fun i => pos (c i) := by
  classical
  rw [affineIndependent_iff]
  intro s z hz0 hz1 i hi
  -- extend `z` by zero, and add a small multiple to the barycenter
  let z' : Fin (d + 1) → K := fun j => if j ∈ s then z j else 0
  have hz0' : ∑ j, z' j = 0 := by
    rw [← hz0, ← Finset.sum_subset (Finset.subset_univ s) fun j _ hj => by simp [z', hj]]
    exact Finset.sum_congr rfl fun j hj => by simp [z', hj]
  have hz1' : ∑ j, z' j • pos (c j) = 0 := by
    rw [← hz1, ← Finset.sum_subset (Finset.subset_univ s) fun j _ hj => by simp [z', hj]]
    exact Finset.sum_congr rfl fun j hj => by simp [z', hj]
  have hN : (0 : K) < (d : K) + 1 := by positivity
  let B : K := 1 + ∑ j, |z' j|
  have hB : 0 < B := by
    have : 0 ≤ ∑ j, |z' j| := Finset.sum_nonneg fun j _ => abs_nonneg _
    simp only [B]
    linarith
  let ε : K := 1 / (((d : K) + 1) * B)
  have hε : 0 < ε := by simp only [ε]; positivity
  have hb : ∀ j, |ε * z' j| ≤ 1 / ((d : K) + 1) := by
    intro j
    rw [abs_mul, abs_of_pos hε]
    have h1 : |z' j| ≤ B := by
      have := Finset.single_le_sum (f := fun j => |z' j|) (fun j _ => abs_nonneg _) (mem_univ j)
      simp only [B]
      linarith
    calc ε * |z' j| ≤ ε * B := mul_le_mul_of_nonneg_left h1 hε.le
      _ = 1 / ((d : K) + 1) := by simp only [ε]; field_simp
  let idx : ℕ → Option (Fin (d + 1)) := fun v => (List.finRange (d + 1)).find? fun j => c j = v
  have hidx : ∀ j, idx (c j) = some j := by
    intro j
    simp only [idx]
    have hs : ((List.finRange (d + 1)).find? fun k => decide (c k = c j)).isSome := by
      rw [List.find?_isSome]
      exact ⟨j, List.mem_finRange j, by simp⟩
    obtain ⟨k, hk⟩ := Option.isSome_iff_exists.1 hs
    rw [hk]
    have := List.find?_some hk
    simp only [decide_eq_true_eq] at this
    rw [hinj this]
  have hoff : ∀ v, v ∉ verts c → idx v = none := by
    intro v hv
    simp only [idx, List.find?_eq_none, List.mem_finRange, true_implies, decide_eq_true_eq]
    exact fun j hj => hv (mem_verts.2 ⟨j, hj⟩)
  let ext : (Fin (d + 1) → K) → ℕ → K := fun f v => match idx v with | some j => f j | none => 0
  have hext : ∀ f j, ext f (c j) = f j := by
    intro f j
    simp only [ext, hidx]
  have hw : ∀ f : Fin (d + 1) → K, (∀ j, 0 ≤ f j) → ∑ j, f j = 1 → IsWeight (verts c) (ext f) := by
    intro f h0 h1
    refine ⟨fun v => ?_, fun v hv => by simp only [ext, hoff v hv], ?_⟩
    · simp only [ext]
      split
      · exact h0 _
      · exact le_refl _
    · rw [sum_verts hinj]
      simp only [hext, h1]
  have hcard : ∑ _j : Fin (d + 1), 1 / ((d : K) + 1) = 1 := by
    rw [Finset.sum_const, Finset.card_univ, Fintype.card_fin, nsmul_eq_mul]
    push_cast
    field_simp
  have h1 := hw (fun _ => 1 / ((d : K) + 1)) (fun _ => by positivity) hcard
  have h2 := hw (fun j => 1 / ((d : K) + 1) + ε * z' j) (fun j => by
      have := (abs_le.1 (hb j)).1
      linarith) (by rw [Finset.sum_add_distrib, hcard, ← Finset.mul_sum, hz0', mul_zero, add_zero])
  have := h _ _ h1 h2 (by
    rw [sum_verts hinj, sum_verts hinj]
    simp only [hext, add_smul, Finset.sum_add_distrib, mul_smul, ← Finset.smul_sum, hz1', smul_zero, add_zero])
  have := congrFun this (c i)
  rw [hext, hext] at this
  have h3 : ε * z' i = 0 := by linarith
  rcases mul_eq_zero.1 h3 with h | h
  · exact absurd h hε.ne'
  · simpa [z', hi] using h

theorem conforming_of_unique {M : Mesh V d} (hinj : ∀ c ∈ M.cells, Function.Injective c) (h : Unique K M) : Conforming K M := by
  refine ⟨fun c hc => indep_of_unique (hinj c hc) fun w w' hw hw' heq => h c hc c hc w w' hw hw' heq, ?_⟩
  rintro c hc c' hc' x ⟨hx, hx'⟩
  obtain ⟨w, hw, rfl⟩ := (hull_iff _ _ _).1 hx
  obtain ⟨w', hw', heq⟩ := (hull_iff _ _ _).1 hx'
  have := h c hc c' hc' w w' hw hw' heq.symm
  subst this
  have hs : Set.range c ∩ Set.range c' = ((verts c ∩ verts c' : Finset ℕ) : Set ℕ) := by
    ext v
    simp [verts]
  rw [hs, hull_finset]
  have hoff : ∀ v, v ∉ verts c ∩ verts c' → w v = 0 := by
    intro v hv
    rw [Finset.mem_inter, not_and_or] at hv
    rcases hv with h | h
    · exact hw.off v h
    · exact hw'.off v h
  refine ⟨w, ⟨hw.nonneg, hoff, ?_⟩, ?_⟩
  · rw [← hw.sum]
    exact Finset.sum_subset Finset.inter_subset_left fun v _ hv => hoff v hv
  · exact Finset.sum_subset Finset.inter_subset_left fun v _ hv => by rw [hoff v hv, zero_smul]

theorem Conforming.inj {M : Mesh V d} (h : Conforming K M) : ∀ c ∈ M.cells, Function.Injective c :=
  fun c hc _ _ hij => (h.nondegenerate c hc).injective (by simp only [hij])

/-! ## Insertion of a vertex -/

theorem mem_insertAt {M : Mesh V d} {F : Finset ℕ} {m : ℕ} {x : V} {c' : Fin (d + 1) → ℕ} :
    c' ∈ (insertAt M F m x).cells ↔ ∃ c ∈ M.cells, (¬ F ⊆ verts c ∧ c' = c) ∨ (F ⊆ verts c ∧ ∃ i, c i ∈ F ∧ c' = Function.update c i m) := by
  simp only [insertAt, List.mem_flatMap]
  refine exists_congr fun c => and_congr_right fun _ => ?_
  unfold splitCell
  split
  · rename_i h
    have h' : F ⊆ verts c := h
    simp only [List.mem_map, List.mem_filter, List.mem_finRange, true_and, decide_eq_true_eq]
    constructor
    · rintro ⟨i, hi, rfl⟩
      exact Or.inr ⟨h', i, hi, rfl⟩
    · rintro (⟨hn, -⟩ | ⟨-, i, hi, rfl⟩)
      · exact absurd h' hn
      · exact ⟨i, hi, rfl⟩
  · rename_i h
    have h' : ¬ F ⊆ verts c := h
    simp only [List.mem_singleton]
    constructor
    · rintro rfl
      exact Or.inl ⟨h', rfl⟩
    · rintro (⟨-, rfl⟩ | ⟨hn, -⟩)
      · rfl
      · exact absurd hn h'

theorem verts_update {c : Fin (d + 1) → ℕ} (hc : Function.Injective c) {m : ℕ} (i : Fin (d + 1)) :
    verts (Function.update c i m) = insert m ((verts c).erase (c i)) := by
  ext v
  simp only [mem_verts, Finset.mem_insert, Finset.mem_erase]
  constructor
  · rintro ⟨j, rfl⟩
    by_cases h : j = i
    · subst h
      simp
    · rw [Function.update_of_ne h]
      exact Or.inr ⟨fun e => h (hc e), j, rfl⟩
  · rintro (rfl | ⟨hne, j, rfl⟩)
    · exact ⟨i, by simp⟩
    · exact ⟨j, Function.update_of_ne (fun e => hne (by rw [e])) _ _⟩

theorem injective_update {c : Fin (d + 1) → ℕ} (hc : Function.Injective c) {m : ℕ} (hm : ∀ i, c i ≠ m) (i : Fin (d + 1)) :
    Function.Injective (Function.update c i m) := by
  intro j k h
  by_cases hj : j = i
  · by_cases hk : k = i
    · rw [hj, hk]
    · subst hj
      rw [Function.update_self, Function.update_of_ne hk] at h
      exact absurd h.symm (hm k)
  · by_cases hk : k = i
    · subst hk
      rw [Function.update_self, Function.update_of_ne hj] at h
      exact absurd h (hm j)
    · rw [Function.update_of_ne hj, Function.update_of_ne hk] at h
      exact hc h

/-- A point strictly inside the edge or element `F`. -/
structure Inside (pos : ℕ → V) (F : Finset ℕ) (x : V) (μ : ℕ → K) : Prop extends IsWeight F μ where
  strict : ∀ v ∈ F, 0 < μ v
  point : ∑ v ∈ F, μ v • pos v = x

theorem Inside.nonempty {pos : ℕ → V} {F : Finset ℕ} {x : V} {μ : ℕ → K} (h : Inside pos F x μ) : F.Nonempty := by
  rw [Finset.nonempty_iff_ne_empty]
  rintro rfl
  have := h.sum
  simp at this

/-- Coordinates in the old mesh of a point given by its coordinates in the new one. -/
def fold (μ : ℕ → K) (m : ℕ) (w : ℕ → K) : ℕ → K := fun v => if v = m then 0 else w v + w m * μ v

theorem sum_update {A : Type*} [AddCommGroup A] [Module K A] {S T : Finset ℕ} {m a : ℕ} (hS : T = insert m (S.erase a)) (hm : m ∉ S) (ha : a ∈ S)
    {w : ℕ → K} (hwa : w a = 0) (f : ℕ → A) : ∑ v ∈ T, w v • f v = w m • f m + ∑ v ∈ S, w v • f v := by
  rw [hS, Finset.sum_insert (fun h => hm (Finset.mem_of_mem_erase h)), ← Finset.sum_erase_add _ _ ha, hwa, zero_smul, add_zero]

theorem sum_fold {A : Type*} [AddCommGroup A] [Module K A] {S F : Finset ℕ} {m : ℕ} {μ w : ℕ → K} (hF : F ⊆ S) (hoff : ∀ v, v ∉ F → μ v = 0)
    (hm : m ∉ S) (f : ℕ → A) : ∑ v ∈ S, fold μ m w v • f v = ∑ v ∈ S, w v • f v + w m • ∑ v ∈ F, μ v • f v := by
  have : ∑ v ∈ S, μ v • f v = ∑ v ∈ F, μ v • f v := (Finset.sum_subset hF fun v _ hv => by rw [hoff v hv, zero_smul]).symm
  rw [← this, Finset.smul_sum, ← Finset.sum_add_distrib]
  refine Finset.sum_congr rfl fun v hv => ?_
  have hne : v ≠ m := fun h => hm (h ▸ hv)
  simp only [fold, hne, if_false, add_smul, mul_smul]

section Insert

variable {M : Mesh V d} {F : Finset ℕ} {m : ℕ} {x : V} {μ : ℕ → K} (hin : Inside M.pos F x μ) (hm : Fresh M m)
  (hinj : ∀ c ∈ M.cells, Function.Injective c)

include hin hm hinj

theorem fold_weight {c : Fin (d + 1) → ℕ} (hc : c ∈ M.cells) {c' : Fin (d + 1) → ℕ}
    (hc' : (¬ F ⊆ verts c ∧ c' = c) ∨ (F ⊆ verts c ∧ ∃ i, c i ∈ F ∧ c' = Function.update c i m)) {w : ℕ → K} (hw : IsWeight (verts c') w) :
    IsWeight (verts c) (fold μ m w) ∧ ∑ v ∈ verts c, fold μ m w v • M.pos v = ∑ v ∈ verts c', w v • (insertAt M F m x).pos v := by
  have hmc : m ∉ verts c := fun h => by
    obtain ⟨i, hi⟩ := mem_verts.1 h
    exact hm c hc i hi
  have hne : ∀ v ∈ verts c, v ≠ m := fun v hv h => hmc (h ▸ hv)
  rcases hc' with ⟨-, rfl⟩ | ⟨hF, i, hi, rfl⟩
  · have h0 : w m = 0 := hw.off m hmc
    have he : ∀ v ∈ verts c', fold μ m w v = w v := fun v hv => by simp [fold, hne v hv, h0]
    refine ⟨⟨fun v => ?_, fun v hv => ?_, ?_⟩, ?_⟩
    · simp only [fold, h0, zero_mul, add_zero]
      split
      · exact le_refl _
      · exact hw.nonneg v
    · simp only [fold, h0, zero_mul, add_zero, hw.off v hv]
      split <;> rfl
    · rw [← hw.sum]
      exact Finset.sum_congr rfl he
    · refine Finset.sum_congr rfl fun v hv => ?_
      rw [he v hv]
      simp only [insertAt, Function.update_of_ne (hne v hv)]
  · have hci : c i ∈ verts c := mem_verts.2 ⟨i, rfl⟩
    have hvu := verts_update (hinj c hc) (m := m) i
    have hwi : w (c i) = 0 := hw.off _ (by
      rw [hvu, Finset.mem_insert, Finset.mem_erase]
      rintro (h | ⟨h, -⟩)
      · exact hne _ hci h
      · exact h rfl)
    refine ⟨⟨fun v => ?_, fun v hv => ?_, ?_⟩, ?_⟩
    · simp only [fold]
      split
      · exact le_refl _
      · exact add_nonneg (hw.nonneg v) (mul_nonneg (hw.nonneg m) (hin.nonneg v))
    · simp only [fold]
      split
      · rfl
      · rename_i hvm
        rw [hw.off v (by
          rw [hvu, Finset.mem_insert, not_or]
          exact ⟨hvm, fun h => hv (Finset.mem_of_mem_erase h)⟩), hin.off v (fun h => hv (hF h))]
        simp
    · have h1 := sum_fold hF hin.off hmc (w := w) (fun _ => (1 : K))
      have h2 := sum_update hvu hmc hci hwi (fun _ => (1 : K))
      simp only [smul_eq_mul, mul_one] at h1 h2
      rw [h1, hin.sum, mul_one]
      rw [hw.sum] at h2
      rw [h2, add_comm]
    · rw [sum_fold hF hin.off hmc, hin.point, sum_update hvu hmc hci hwi]
      simp only [insertAt, Function.update_self]
      rw [add_comm]
      congr 1
      refine Finset.sum_congr rfl fun v hv => ?_
      rw [Function.update_of_ne (hne v hv)]

theorem exists_zero {c' : Fin (d + 1) → ℕ} (hc' : c' ∈ (insertAt M F m x).cells) {w : ℕ → K} (hw : IsWeight (verts c') w) :
    ∃ v ∈ F, w v = 0 := by
  obtain ⟨c, hc, ⟨hF, rfl⟩ | ⟨hF, i, hi, rfl⟩⟩ := mem_insertAt.1 hc'
  · obtain ⟨v, hv, hn⟩ := Finset.not_subset.1 hF
    exact ⟨v, hv, hw.off v hn⟩
  · refine ⟨c i, hi, hw.off _ ?_⟩
    rw [verts_update (hinj c hc), Finset.mem_insert, Finset.mem_erase]
    rintro (h | ⟨h, -⟩)
    · exact hm c hc i h
    · exact h rfl

theorem unique_insertAt (hmF : m ∉ F) (h : Unique K M) : Unique K (insertAt M F m x) := by
  intro c1 hc1 c2 hc2 w w' hw hw' heq
  obtain ⟨a, ha, ha'⟩ := mem_insertAt.1 hc1
  obtain ⟨b, hb, hb'⟩ := mem_insertAt.1 hc2
  obtain ⟨f1, g1⟩ := fold_weight hin hm hinj ha ha' hw
  obtain ⟨f2, g2⟩ := fold_weight hin hm hinj hb hb' hw'
  have hf := h a ha b hb _ _ f1 f2 (by rw [g1, g2, heq])
  have key : ∀ v, v ≠ m → w v + w m * μ v = w' v + w' m * μ v := by
    intro v hv
    have := congrFun hf v
    simpa only [fold, hv, if_false] using this
  have hle : ∀ u u' : ℕ → K, (∀ v, 0 ≤ u' v) → (∃ v ∈ F, u v = 0) → (∀ v, v ≠ m → u v + u m * μ v = u' v + u' m * μ v) → u' m ≤ u m := by
    rintro u u' h0 ⟨v, hv, hz⟩ hk
    have h1 := hk v fun e => hmF (e ▸ hv)
    rw [hz, zero_add] at h1
    have h2 : u' m * μ v ≤ u m * μ v := by
      have := h0 v
      linarith
    exact le_of_mul_le_mul_right h2 (hin.strict v hv)
  have hmm : w m = w' m := le_antisymm (hle w' w hw.nonneg (exists_zero hin hm hinj hc2 hw') fun v hv => (key v hv).symm)
    (hle w w' hw'.nonneg (exists_zero hin hm hinj hc1 hw) key)
  funext v
  by_cases hv : v = m
  · rw [hv, hmm]
  · have := key v hv
    rw [hmm] at this
    linarith

theorem conforming_insertAt (hmF : m ∉ F) (h : Conforming K M) : Conforming K (insertAt M F m x) := by
  refine conforming_of_unique ?_ (unique_insertAt hin hm hinj hmF h.unique)
  intro c' hc'
  obtain ⟨c, hc, ⟨-, rfl⟩ | ⟨-, i, hi, rfl⟩⟩ := mem_insertAt.1 hc'
  · exact hinj _ hc
  · exact injective_update (hinj c hc) (hm c hc) i

/-- The elements that replace an element cover it. -/
theorem cover_insertAt {c : Fin (d + 1) → ℕ} (hc : c ∈ M.cells) {y : V} (hy : y ∈ convexHull K (Set.range fun i => M.pos (c i))) :
    ∃ c' : Fin (d + 1) → ℕ, ((¬ F ⊆ verts c ∧ c' = c) ∨ (F ⊆ verts c ∧ ∃ i, c i ∈ F ∧ c' = Function.update c i m)) ∧
      y ∈ convexHull K (Set.range fun i => (insertAt M F m x).pos (c' i)) := by
  obtain ⟨u, hu, rfl⟩ := (hull_iff _ _ _).1 hy
  by_cases hF : F ⊆ verts c
  · -- the vertex of `F` that is replaced
    obtain ⟨a, ha, hmin⟩ := Finset.exists_min_image F (fun v => u v / μ v) hin.nonempty
    obtain ⟨i, hi⟩ := mem_verts.1 (hF ha)
    subst hi
    have hcell : (¬ F ⊆ verts c ∧ Function.update c i m = c) ∨
        (F ⊆ verts c ∧ ∃ j, c j ∈ F ∧ Function.update c i m = Function.update c j m) := Or.inr ⟨hF, i, ha, rfl⟩
    have hmc : m ∉ verts c := fun h => by
      obtain ⟨j, hj⟩ := mem_verts.1 h
      exact hm c hc j hj
    let s := u (c i) / μ (c i)
    have hs : 0 ≤ s := div_nonneg (hu.nonneg _) (hin.nonneg _)
    let w : ℕ → K := fun v => if v = m then s else u v - s * μ v
    have hw0 : ∀ v, 0 ≤ w v := by
      intro v
      simp only [w]
      split
      · exact hs
      · by_cases hv : v ∈ F
        · have h1 := hmin v hv
          have h2 : s * μ v ≤ u v := by
            have := (le_div_iff₀ (hin.strict v hv)).1 h1
            exact this
          linarith
        · rw [hin.off v hv, mul_zero, sub_zero]
          exact hu.nonneg v
    have hwi : w (c i) = 0 := by
      simp only [w]
      rw [if_neg (hm c hc i)]
      simp only [s]
      rw [div_mul_cancel₀ _ (hin.strict _ ha).ne', sub_self]
    have hvu := verts_update (hinj c hc) (m := m) i
    have hme : m ∉ (verts c).erase (c i) := fun h => hmc (Finset.mem_of_mem_erase h)
    have hci : c i ∈ verts c := mem_verts.2 ⟨i, rfl⟩
    have hww : IsWeight (verts (Function.update c i m)) w := by
      refine ⟨hw0, fun v hv => ?_, ?_⟩
      · rw [hvu, Finset.mem_insert, not_or, Finset.mem_erase, not_and_or, not_not] at hv
        rcases hv.2 with h | h
        · rw [h, hwi]
        · simp only [w]
          rw [if_neg hv.1, hu.off v h, hin.off v (fun e => h (hF e))]
          simp
      · rw [hvu, Finset.sum_insert hme]
        have h1 : ∑ v ∈ (verts c).erase (c i), w v = ∑ v ∈ verts c, w v := by
          rw [← Finset.sum_erase_add _ _ hci, hwi, add_zero]
        have h2 : ∑ v ∈ verts c, w v = ∑ v ∈ verts c, (u v - s * μ v) :=
          Finset.sum_congr rfl fun v hv => by
            simp only [w]
            rw [if_neg (show v ≠ m from fun e => hmc (e ▸ hv))]
        have h3 : ∑ v ∈ verts c, μ v = 1 := by
          rw [← hin.sum]
          exact (Finset.sum_subset hF fun v _ hv => hin.off v hv).symm
        rw [h1, h2, Finset.sum_sub_distrib, ← Finset.mul_sum, h3, hu.sum]
        simp only [w, if_true]
        ring
    obtain ⟨f, g⟩ := fold_weight hin hm hinj hc hcell hww
    refine ⟨Function.update c i m, hcell, (hull_iff _ _ _).2 ⟨w, hww, ?_⟩⟩
    rw [← g]
    refine Finset.sum_congr rfl fun v hv => ?_
    have hvm : v ≠ m := fun e => hmc (e ▸ hv)
    simp only [fold, w, if_true, if_neg hvm]
    congr 1
    ring
  · refine ⟨c, Or.inl ⟨hF, rfl⟩, (hull_iff _ _ _).2 ⟨u, hu, ?_⟩⟩
    refine Finset.sum_congr rfl fun v hv => ?_
    simp only [insertAt]
    rw [Function.update_of_ne]
    rintro rfl
    obtain ⟨j, hj⟩ := mem_verts.1 hv
    exact hm c hc j hj

theorem domain_insertAt : domain K (insertAt M F m x) = domain K M := by
  ext y
  constructor
  · rintro ⟨c', hc', hy⟩
    obtain ⟨c, hc, h⟩ := mem_insertAt.1 hc'
    obtain ⟨w, hw, rfl⟩ := (hull_iff _ _ _).1 hy
    obtain ⟨f, g⟩ := fold_weight hin hm hinj hc h hw
    exact ⟨c, hc, (hull_iff _ _ _).2 ⟨_, f, g⟩⟩
  · rintro ⟨c, hc, hy⟩
    obtain ⟨c', h, hy'⟩ := cover_insertAt hin hm hinj hc hy
    exact ⟨c', mem_insertAt.2 ⟨c, hc, h⟩, hy'⟩

end Insert

/-! ## The insertion loop -/

/-- The request was made for an edge of the mesh `M`, for a point strictly between the end points. -/
def OnEdge (K : Type*) [Field K] [LinearOrder K] [Module K V] (M : Mesh V d) (r : Req V) : Prop :=
  ∃ c ∈ M.cells, ∃ i j, i ≠ j ∧ ∃ t : K, 0 < t ∧ t < 1 ∧ r = refineEdge M (c i) (c j) t

/-- The point is inside an element of `M` and not on a facet. -/
def InElement (K : Type*) [Field K] [LinearOrder K] [Module K V] (M : Mesh V d) (x : V) : Prop :=
  x ∈ domain K M ∧ ∀ c ∈ M.cells, ∀ i, x ∉ convexHull K (M.pos '' (c '' {i}ᶜ))

/-- **C187** Requests for marked elements are requests for edges of the mesh, made for the point in the middle. -/
theorem C187_marked {M : Mesh V d} {c : Fin (d + 1) → ℕ} (hc : c ∈ M.cells) {i j : Fin (d + 1)} (hij : i ≠ j) :
    OnEdge K M (refineMarked K M (c i) (c j)) := by
  refine ⟨c, hc, i, j, hij, 1 / 2, by norm_num, by norm_num, ?_⟩
  simp only [refineMarked, refineEdge, smul_add]
  congr 3
  norm_num

theorem inside_edge (pos : ℕ → V) {a b : ℕ} (hab : a ≠ b) {t : K} (h0 : 0 < t) (h1 : t < 1) :
    Inside pos {a, b} (t • pos a + (1 - t) • pos b) (fun v => if v = a then t else if v = b then 1 - t else 0) := by
  refine ⟨⟨fun v => ?_, fun v hv => ?_, ?_⟩, fun v hv => ?_, ?_⟩
  · beta_reduce
    split_ifs <;> linarith
  · simp only [Finset.mem_insert, Finset.mem_singleton, not_or] at hv
    simp [hv.1, hv.2]
  · rw [Finset.sum_pair hab]
    simp [hab.symm]
  · simp only [Finset.mem_insert, Finset.mem_singleton] at hv
    rcases hv with rfl | rfl
    · simp [h0]
    · simp [hab.symm, h1]
  · rw [Finset.sum_pair hab]
    simp [hab.symm]

theorem inside_element {M : Mesh V d} {c : Fin (d + 1) → ℕ} (hc : Function.Injective c) {x : V}
    (hx : x ∈ convexHull K (Set.range fun i => M.pos (c i))) (hn : ∀ i, x ∉ convexHull K (M.pos '' (c '' {i}ᶜ))) :
    ∃ μ : ℕ → K, Inside M.pos (verts c) x μ := by
  obtain ⟨w, hw, hwx⟩ := (hull_iff _ _ _).1 hx
  refine ⟨w, ⟨hw, fun v hv => ?_, hwx⟩⟩
  obtain ⟨i, rfl⟩ := mem_verts.1 hv
  refine lt_of_le_of_ne (hw.nonneg _) fun h0 => hn i ?_
  have hs : c '' {i}ᶜ = ((verts c).erase (c i) : Finset ℕ) := by
    ext v
    simp only [Set.mem_image, Set.mem_compl_iff, Set.mem_singleton_iff, Finset.coe_erase, Set.mem_sdiff, Finset.mem_coe, mem_verts]
    constructor
    · rintro ⟨j, hj, rfl⟩
      exact ⟨⟨j, rfl⟩, fun e => hj (hc e)⟩
    · rintro ⟨⟨j, rfl⟩, hj⟩
      exact ⟨j, fun e => hj (by rw [e]), rfl⟩
  rw [hs, hull_finset]
  have hoff : ∀ v, v ∉ (verts c).erase (c i) → w v = 0 := by
    intro v hv
    rw [Finset.mem_erase, not_and_or, not_not] at hv
    rcases hv with h | h
    · rw [h, ← h0]
    · exact hw.off v h
  refine ⟨w, ⟨hw.nonneg, hoff, ?_⟩, ?_⟩
  · rw [← hw.sum, ← Finset.sum_erase_add _ _ hv, ← h0, add_zero]
  · rw [← hwx, ← Finset.sum_erase_add _ _ hv, ← h0, zero_smul, add_zero]

/-- A turn of the loop leaves the mesh or inserts a vertex strictly inside an edge or an element. -/
theorem step_cases {M M' : Mesh V d} {r : Req V} (hd : 0 < d) (h : Step (K := K) M r M') (hinj : ∀ c ∈ M.cells, Function.Injective c)
    (hedge : ∀ e, r.edge = some e → ∃ t : K, 0 < t ∧ t < 1 ∧ r.point = t • M.pos e.1 + (1 - t) • M.pos e.2)
    (hcell : r.edge = none → InElement K M r.point) :
    M' = M ∨ ∃ F m x, ∃ μ : ℕ → K, M' = insertAt M F m x ∧ Inside M.pos F x μ ∧ Fresh M m ∧ m ∉ F ∧ 2 ≤ F.card := by
  cases h with
  | dropped => exact Or.inl rfl
  | @edge a b x m c hc hab ha hb hm =>
    obtain ⟨t, h0, h1, hx⟩ := hedge (a, b) rfl
    simp only at hx
    refine Or.inr ⟨{a, b}, m, x, _, rfl, hx ▸ inside_edge M.pos hab h0 h1, hm, ?_, by rw [Finset.card_pair hab]⟩
    rw [Finset.mem_insert, Finset.mem_singleton, not_or]
    obtain ⟨i, rfl⟩ := ha
    obtain ⟨j, rfl⟩ := hb
    exact ⟨fun e => hm c hc i e.symm, fun e => hm c hc j e.symm⟩
  | @cell x m c hc hx hm =>
    obtain ⟨-, hn⟩ := hcell rfl
    obtain ⟨μ, hμ⟩ := inside_element (hinj c hc) hx (hn c hc)
    refine Or.inr ⟨verts c, m, x, μ, rfl, hμ, hm, ?_, ?_⟩
    · intro h
      obtain ⟨i, hi⟩ := mem_verts.1 h
      exact hm c hc i hi
    · rw [verts, Finset.card_image_of_injective _ (hinj c hc), Finset.card_univ, Fintype.card_fin]
      omega
  | outside hc hx =>
    obtain ⟨⟨c', hc', hx'⟩, -⟩ := hcell rfl
    exact absurd hx' (hx c' hc')

theorem vertices_insertAt {M : Mesh V d} {F : Finset ℕ} {m : ℕ} {x : V} (hinj : ∀ c ∈ M.cells, Function.Injective c) (hF : 2 ≤ F.card)
    {v : ℕ} (hv : v ∈ vertices M) : v ∈ vertices (insertAt M F m x) := by
  obtain ⟨c, hc, k, rfl⟩ := hv
  by_cases h : F ⊆ verts c
  · obtain ⟨a, ha, hne⟩ := Finset.exists_mem_ne (s := F) (by omega) (c k)
    obtain ⟨i, rfl⟩ := mem_verts.1 (h ha)
    refine ⟨Function.update c i m, mem_insertAt.2 ⟨c, hc, Or.inr ⟨h, i, ha, rfl⟩⟩, k, ?_⟩
    rw [Function.update_of_ne]
    rintro rfl
    exact hne rfl
  · exact ⟨c, mem_insertAt.2 ⟨c, hc, Or.inl ⟨h, rfl⟩⟩, k, rfl⟩

/-- **C187** Refinement: the requests were made for edges of the mesh with `0 < where < 1` (in particular by marking elements), or are positions which, when
their turn comes, lie inside an element and not on a facet. However many requests are carried out, the mesh after the insertion loop is conforming
and covers the same domain, and all old vertices are still vertices of the mesh and were not moved. -/
theorem C187_conforming (hd : 0 < d) {M M' : Mesh V d} {rs : List (Req V)} (hM : Conforming K M) (hrun : Run K M rs M')
    (hedge : ∀ r ∈ rs, ∀ e, r.edge = some e → OnEdge K M r)
    (hcell : ∀ pre r post M1, rs = pre ++ r :: post → Run K M pre M1 → r.edge = none → InElement K M1 r.point) :
    Conforming K M' ∧ domain K M' = domain K M ∧ ∀ v ∈ vertices M, v ∈ vertices M' ∧ M'.pos v = M.pos v := by
  suffices H : ∀ (M0 M1 M' : Mesh V d) (rs : List (Req V)), Run K M1 rs M' → (∀ v ∈ vertices M0, v ∈ vertices M1 ∧ M1.pos v = M0.pos v) →
      (∀ r ∈ rs, ∀ e, r.edge = some e → OnEdge K M0 r) →
      (∀ pre r post M2, rs = pre ++ r :: post → Run K M1 pre M2 → r.edge = none → InElement K M2 r.point) → Conforming K M1 →
      Conforming K M' ∧ domain K M' = domain K M1 ∧ ∀ v ∈ vertices M0, v ∈ vertices M' ∧ M'.pos v = M0.pos v from
    H M M M' rs hrun (fun v hv => ⟨hv, rfl⟩) hedge hcell hM
  clear hrun hedge hcell hM rs M' M
  intro M0 M1 M' rs hrun
  induction hrun with
  | nil => exact fun hv _ _ hM => ⟨hM, rfl, hv⟩
  | @cons M1 M2 M3 r rs hstep hrest ih =>
    intro hv hedge hcell hM
    have hsc := step_cases hd hstep hM.inj (by
      intro e he
      obtain ⟨c, hc, i, j, hij, t, h0, h1, rfl⟩ := hedge r (by simp) e he
      simp only [refineEdge, Option.some.injEq] at he
      subst he
      refine ⟨t, h0, h1, ?_⟩
      simp only [refineEdge]
      rw [(hv (c i) ⟨c, hc, i, rfl⟩).2, (hv (c j) ⟨c, hc, j, rfl⟩).2]) (fun he => hcell [] r rs M1 rfl Run.nil he)
    have hcell' : ∀ pre r' post M4, rs = pre ++ r' :: post → Run K M2 pre M4 → r'.edge = none → InElement K M4 r'.point :=
      fun pre r' post M4 h1 h2 h3 => hcell (r :: pre) r' post M4 (by rw [h1]; rfl) (Run.cons hstep h2) h3
    have hedge' : ∀ r' ∈ rs, ∀ e, r'.edge = some e → OnEdge K M0 r' := fun r' hr' => hedge r' (by simp [hr'])
    rcases hsc with rfl | ⟨F, m, x, μ, rfl, hin, hm, hmF, hF⟩
    · exact ih hv hedge' hcell' hM
    · obtain ⟨h1, h2, h3⟩ := ih (fun v hv' => by
          obtain ⟨hv1, hv2⟩ := hv v hv'
          refine ⟨vertices_insertAt hM.inj hF hv1, ?_⟩
          rw [← hv2]
          obtain ⟨c, hc, i, rfl⟩ := hv1
          exact Function.update_of_ne (hm c hc i) _ _) hedge' hcell' (conforming_insertAt hin hm hM.inj hmF hM)
      exact ⟨h1, h2.trans (domain_insertAt hin hm hM.inj), h3⟩

/-- Any number of calls of `adapt()`, each with requests made on the mesh of that time. -/
inductive Cycles (K : Type*) [Field K] [LinearOrder K] [Module K V] : Mesh V d → Mesh V d → Prop
  | refl {M} : Cycles K M M
  | adapt {M M1 M2 rs} : Cycles K M M1 → Run K M1 rs M2 → (∀ r ∈ rs, ∀ e, r.edge = some e → OnEdge K M1 r) →
      (∀ pre r post M', rs = pre ++ r :: post → Run K M1 pre M' → r.edge = none → InElement K M' r.point) → Cycles K M M2

/-- **C187** The same holds after any number of calls of `adapt()`. -/
theorem C187_cycles (hd : 0 < d) {M M' : Mesh V d} (hM : Conforming K M) (h : Cycles K M M') :
    Conforming K M' ∧ domain K M' = domain K M ∧ ∀ v ∈ vertices M, v ∈ vertices M' ∧ M'.pos v = M.pos v := by
  induction h with
  | refl => exact ⟨hM, rfl, fun v hv => ⟨hv, rfl⟩⟩
  | adapt _ hrun hedge hcell ih =>
    obtain ⟨h1, h2, h3⟩ := ih
    obtain ⟨g1, g2, g3⟩ := C187_conforming hd h1 hrun hedge hcell
    refine ⟨g1, g2.trans h2, fun v hv => ?_⟩
    obtain ⟨a, b⟩ := h3 v hv
    obtain ⟨a', b'⟩ := g3 v a
    exact ⟨a', b'.trans b⟩

/-! ## Volumes -/

section Volume

/-- `d!` times the signed volume of the simplex with these corners: the determinant of the matrix with the rows `(1, p i)`. -/
def signedVolume (p : Fin (d + 1) → Fin d → K) : K := Matrix.det (Matrix.of fun i => (Fin.cons 1 (p i) : Fin (d + 1) → K))

/-- The total volume (times `d!`) of the mesh. -/
def totalVolume (M : Mesh (Fin d → K) d) : K := (M.cells.map fun c => signedVolume fun i => M.pos (c i)).sum

theorem volume_update {pos : ℕ → Fin d → K} {F : Finset ℕ} {m : ℕ} {x : Fin d → K} {μ : ℕ → K} (hin : Inside pos F x μ) {c : Fin (d + 1) → ℕ}
    (hc : Function.Injective c) (hF : F ⊆ verts c) (hm : ∀ i, c i ≠ m) (i : Fin (d + 1)) :
    signedVolume (fun k => Function.update pos m x (Function.update c i m k)) = μ (c i) * signedVolume fun k => pos (c k) := by
  unfold signedVolume
  rw [← smul_eq_mul, ← Matrix.det_updateRow_sum _ i fun k => μ (c k)]
  congr 1
  ext k l
  have hs : ∑ k, μ (c k) = 1 := by
    rw [← sum_verts hc, ← hin.sum]
    exact (Finset.sum_subset hF fun v _ hv => hin.off v hv).symm
  have hx : ∑ k, μ (c k) • pos (c k) = x := by
    rw [← sum_verts hc fun v => μ v • pos v, ← hin.point]
    exact (Finset.sum_subset hF fun v _ hv => by rw [hin.off v hv, zero_smul]).symm
  by_cases hk : k = i
  · subst hk
    rw [Matrix.updateRow_self]
    simp only [Matrix.of_apply, Function.update_self, Finset.sum_apply, Pi.smul_apply, smul_eq_mul]
    refine Fin.cases ?_ (fun l => ?_) l
    · simp [hs]
    · simp only [Fin.cons_succ]
      rw [← hx]
      simp [Finset.sum_apply]
  · rw [Matrix.updateRow_ne hk]
    simp only [Matrix.of_apply]
    rw [Function.update_of_ne hk, Function.update_of_ne (hm k)]

theorem volumes_splitCell {pos : ℕ → Fin d → K} {F : Finset ℕ} {m : ℕ} {x : Fin d → K} {μ : ℕ → K} (hin : Inside pos F x μ) {c : Fin (d + 1) → ℕ}
    (hc : Function.Injective c) (hm : ∀ i, c i ≠ m) :
    ((splitCell F m c).map fun c' => signedVolume fun i => Function.update pos m x (c' i)).sum = signedVolume fun i => pos (c i) := by
  unfold splitCell
  split
  · rename_i hF
    have hF' : F ⊆ verts c := hF
    rw [List.map_map]
    have : ((fun c' => signedVolume fun i => Function.update pos m x (c' i)) ∘ fun i => Function.update c i m) =
        fun i => μ (c i) * signedVolume fun k => pos (c k) := by
      funext i
      exact volume_update hin hc hF' hm i
    rw [this, List.sum_map_mul_right]
    have hs : (((List.finRange (d + 1)).filter fun i => decide (c i ∈ F)).map fun i => μ (c i)).sum = 1 := by
      have h1 : ∑ k, μ (c k) = 1 := by
        rw [← sum_verts hc, ← hin.sum]
        exact (Finset.sum_subset hF' fun v _ hv => hin.off v hv).symm
      rw [← h1, ← List.sum_ofFn, List.ofFn_eq_map]
      generalize List.finRange (d + 1) = l
      induction l with
      | nil => rfl
      | cons a l ih =>
        rw [List.map_cons, List.sum_cons, ← ih, List.filter_cons]
        split
        · rfl
        · rename_i h
          rw [hin.off (c a) (by simpa using h), zero_add]
    rw [hs, one_mul]
  · simp only [List.map_cons, List.map_nil, List.sum_cons, List.sum_nil, add_zero]
    congr 1
    funext i
    rw [Function.update_of_ne (hm i)]

theorem totalVolume_insertAt {M : Mesh (Fin d → K) d} {F : Finset ℕ} {m : ℕ} {x : Fin d → K} {μ : ℕ → K} (hin : Inside M.pos F x μ) (hm : Fresh M m)
    (hinj : ∀ c ∈ M.cells, Function.Injective c) : totalVolume (insertAt M F m x) = totalVolume M := by
  unfold totalVolume insertAt
  simp only
  have : ∀ l : List (Fin (d + 1) → ℕ), (∀ c ∈ l, c ∈ M.cells) →
      ((l.flatMap (splitCell F m)).map fun c => signedVolume fun i => Function.update M.pos m x (c i)).sum =
        (l.map fun c => signedVolume fun i => M.pos (c i)).sum := by
    intro l
    induction l with
    | nil => intro _; rfl
    | cons c l ih =>
      intro hl
      rw [List.flatMap_cons, List.map_append, List.sum_append, ih fun c' hc' => hl c' (by simp [hc']),
        volumes_splitCell hin (hinj c (hl c (by simp))) (hm c (hl c (by simp)))]
      rfl
  exact this M.cells fun c hc => hc

theorem positive_insertAt {M : Mesh (Fin d → K) d} {F : Finset ℕ} {m : ℕ} {x : Fin d → K} {μ : ℕ → K} (hin : Inside M.pos F x μ) (hm : Fresh M m)
    (hinj : ∀ c ∈ M.cells, Function.Injective c) (hpos : ∀ c ∈ M.cells, 0 < signedVolume fun i => M.pos (c i)) :
    ∀ c ∈ (insertAt M F m x).cells, 0 < signedVolume fun i => (insertAt M F m x).pos (c i) := by
  intro c' hc'
  obtain ⟨c, hc, ⟨-, rfl⟩ | ⟨hF, i, hi, rfl⟩⟩ := mem_insertAt.1 hc'
  · have : (fun i => (insertAt M F m x).pos (c' i)) = fun i => M.pos (c' i) := by
      funext i
      exact Function.update_of_ne (hm c' hc i) _ _
    rw [this]
    exact hpos c' hc
  · have := volume_update hin (hinj c hc) hF (hm c hc) i
    simp only [insertAt]
    rw [this]
    exact mul_pos (hin.strict _ hi) (hpos c hc)

/-- **C187** Under the same hypotheses, elements of positive orientation are replaced by elements of positive orientation, and the total volume does
not change. -/
theorem C187_volume (hd : 0 < d) {M M' : Mesh (Fin d → K) d} {rs : List (Req (Fin d → K))} (hM : Conforming K M) (hrun : Run K M rs M')
    (hedge : ∀ r ∈ rs, ∀ e, r.edge = some e → OnEdge K M r)
    (hcell : ∀ pre r post M1, rs = pre ++ r :: post → Run K M pre M1 → r.edge = none → InElement K M1 r.point)
    (hpos : ∀ c ∈ M.cells, 0 < signedVolume fun i => M.pos (c i)) :
    (∀ c ∈ M'.cells, 0 < signedVolume fun i => M'.pos (c i)) ∧ totalVolume M' = totalVolume M := by
  suffices H : ∀ (M0 M1 M' : Mesh (Fin d → K) d) (rs : List (Req (Fin d → K))), Run K M1 rs M' →
      (∀ v ∈ vertices M0, v ∈ vertices M1 ∧ M1.pos v = M0.pos v) → (∀ r ∈ rs, ∀ e, r.edge = some e → OnEdge K M0 r) →
      (∀ pre r post M2, rs = pre ++ r :: post → Run K M1 pre M2 → r.edge = none → InElement K M2 r.point) → Conforming K M1 →
      (∀ c ∈ M1.cells, 0 < signedVolume fun i => M1.pos (c i)) →
      (∀ c ∈ M'.cells, 0 < signedVolume fun i => M'.pos (c i)) ∧ totalVolume M' = totalVolume M1 from
    H M M M' rs hrun (fun v hv => ⟨hv, rfl⟩) hedge hcell hM hpos
  clear hrun hedge hcell hM rs M' hpos M
  intro M0 M1 M' rs hrun
  induction hrun with
  | nil => exact fun _ _ _ _ hp => ⟨hp, rfl⟩
  | @cons M1 M2 M3 r rs hstep hrest ih =>
    intro hv hedge hcell hM hp
    have hsc := step_cases hd hstep hM.inj (by
      intro e he
      obtain ⟨c, hc, i, j, hij, t, h0, h1, rfl⟩ := hedge r (by simp) e he
      simp only [refineEdge, Option.some.injEq] at he
      subst he
      refine ⟨t, h0, h1, ?_⟩
      simp only [refineEdge]
      rw [(hv (c i) ⟨c, hc, i, rfl⟩).2, (hv (c j) ⟨c, hc, j, rfl⟩).2]) (fun he => hcell [] r rs M1 rfl Run.nil he)
    have hcell' : ∀ pre r' post M4, rs = pre ++ r' :: post → Run K M2 pre M4 → r'.edge = none → InElement K M4 r'.point :=
      fun pre r' post M4 h1 h2 h3 => hcell (r :: pre) r' post M4 (by rw [h1]; rfl) (Run.cons hstep h2) h3
    have hedge' : ∀ r' ∈ rs, ∀ e, r'.edge = some e → OnEdge K M0 r' := fun r' hr' => hedge r' (by simp [hr'])
    rcases hsc with rfl | ⟨F, m, x, μ, rfl, hin, hm, hmF, hF⟩
    · exact ih hv hedge' hcell' hM hp
    · obtain ⟨h1, h2⟩ := ih (fun v hv' => by
          obtain ⟨hv1, hv2⟩ := hv v hv'
          refine ⟨vertices_insertAt hM.inj hF hv1, ?_⟩
          rw [← hv2]
          obtain ⟨c, hc, i, rfl⟩ := hv1
          exact Function.update_of_ne (hm c hc i) _ _) hedge' hcell' (conforming_insertAt hin hm hM.inj hmF hM) (positive_insertAt hin hm hM.inj hp)
      exact ⟨h1, h2.trans (totalVolume_insertAt hin hm hM.inj)⟩

end Volume

end Verif.Refine
